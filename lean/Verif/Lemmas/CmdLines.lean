import Verif.Lemmas.CmdBytes

namespace AstroRun
open Spec

namespace CmdLem

/-- Add a byte to the lines (with their newlines) and the tail. -/
def feed (p : List (List UInt8) × List UInt8) (b : UInt8) : List (List UInt8) × List UInt8 :=
  if b = 10 then (p.1 ++ [p.2 ++ [10]], []) else (p.1, p.2 ++ [b])

def cut (bs : List UInt8) : List (List UInt8) × List UInt8 := bs.foldl feed ([], [])

theorem feed_shift (d : List (List UInt8)) (c : List UInt8) (bs : List UInt8) :
    bs.foldl feed (d, c) = (d ++ (bs.foldl feed ([], c)).1, (bs.foldl feed ([], c)).2) := by
  induction bs generalizing d c with
  | nil => simp
  | cons b bs ih =>
    simp only [List.foldl_cons, feed]
    split
    · rw [ih (d ++ [c ++ [10]]), ih ([] ++ [c ++ [10]])]; simp
    · rw [ih]

theorem feed_plain (c : List UInt8) {l : List UInt8} (h : 10 ∉ l) : l.foldl feed ([], c) = ([], c ++ l) := by
  induction l generalizing c with
  | nil => simp
  | cons b l ih =>
    simp only [List.mem_cons, not_or] at h
    simp only [List.foldl_cons, feed, if_neg (Ne.symm h.1)]
    rw [ih _ h.2]; simp

theorem cut_plain {l : List UInt8} (h : 10 ∉ l) : cut l = ([], l) := by simpa [cut] using feed_plain [] h

theorem cut_line {l rest : List UInt8} (h : 10 ∉ l) : cut (l ++ 10 :: rest) = ((l ++ [10]) :: (cut rest).1, (cut rest).2) := by
  unfold cut
  rw [List.foldl_append, feed_plain [] h]
  simp only [List.nil_append, List.foldl_cons, feed, if_true]
  rw [feed_shift]; simp

theorem cut_snoc (bs : List UInt8) (b : UInt8) : cut (bs ++ [b]) = feed (cut bs) b := by simp [cut]

/-- The text of a line, if it has one. -/
def textOf (bs : List UInt8) : String := (lineText bs).getD ""

/-- The lines in a pipe and its reader. -/
def lineQ (d : Duct) : List String :=
  (cut (d.line ++ d.buf ++ d.data)).1.map textOf ++
    if d.isOpen ∨ (cut (d.line ++ d.buf ++ d.data)).2 = [] then [] else [textOf (cut (d.line ++ d.buf ++ d.data)).2]

/-- The same point of a run. -/
structure SameRun (m : CmdRun) (l : LocalRun) : Prop where
  pc : l.pc = match m.pc with
    | .reading => .select .reading
    | .waiting => .select .waiting
    | .over => .select .okDone
  stream : l.stream = m.stream
  child : ∃ ch, l.child = some ch ∧ ch.outOpen = m.out.isOpen ∧ ch.errOpen = m.err.isOpen ∧ ch.exit = m.exit ∧
    (m.pc = .reading → ch.outQ = lineQ m.out ∧ ch.errQ = lineQ m.err)

/-- A simulation step. -/
def Matches (m' : CmdRun) (l : LocalRun) : Prop :=
  ∃ lacts l', runs LocalRun.step l lacts = some l' ∧ SameRun m' l' ∧ lacts.all cmdMove = true

theorem matches_none {m' : CmdRun} {l : LocalRun} (h : SameRun m' l) : Matches m' l := ⟨[], l, rfl, h, rfl⟩

theorem matches_one {m' : CmdRun} {l l' : LocalRun} (a : LocalAct) (ha : cmdMove a = true) (h : l.step a = some l') (hs : SameRun m' l') :
    Matches m' l := ⟨[a], l', by simp [runs, h], hs, by simp [ha]⟩

theorem matches_two {m' : CmdRun} {l l' l'' : LocalRun} (a b : LocalAct) (ha : cmdMove a = true) (hb : cmdMove b = true)
    (h : l.step a = some l') (h' : l'.step b = some l'') (hs : SameRun m' l'') :
    Matches m' l := ⟨[a, b], l'', by simp [runs, h, h'], hs, by simp [ha, hb]⟩

theorem lineQ_put {d : Duct} (ho : d.isOpen = true) (b : UInt8) :
    lineQ { d with data := d.data ++ [b] } =
      if b = 10 then lineQ d ++ [textOf ((cut (d.line ++ d.buf ++ d.data)).2 ++ [10])] else lineQ d := by
  have e : d.line ++ d.buf ++ (d.data ++ [b]) = (d.line ++ d.buf ++ d.data) ++ [b] := by simp
  simp only [lineQ, ho, e, cut_snoc, feed]
  split <;> simp

theorem lineQ_close {d : Duct} (ho : d.isOpen = true) :
    lineQ { d with isOpen := false } = lineQ d ++
      if (cut (d.line ++ d.buf ++ d.data)).2 = [] then [] else [textOf (cut (d.line ++ d.buf ++ d.data)).2] := by
  simp [lineQ, ho]

theorem lineQ_same {d d' : Duct} (h : d'.line ++ d'.buf ++ d'.data = d.line ++ d.buf ++ d.data) (ho : d'.isOpen = d.isOpen) :
    lineQ d' = lineQ d := by simp only [lineQ, h, ho]

theorem lineQ_line {d : Duct} {pre more : List UInt8} (h : d.buf = pre ++ 10 :: more) (h10 : 10 ∉ d.line ++ pre) :
    lineQ d = textOf (d.line ++ pre ++ [10]) :: lineQ { d with buf := more, line := [] } := by
  have e : d.line ++ d.buf ++ d.data = (d.line ++ pre) ++ 10 :: (more ++ d.data) := by rw [h]; simp
  simp only [lineQ]
  rw [e, cut_line h10]
  simp

theorem lineQ_last {d : Duct} (hb : d.buf = []) (hd : d.data = []) (ho : d.isOpen = false) (h10 : 10 ∉ d.line) :
    lineQ d = if d.line = [] then [] else [textOf d.line] := by
  simp [lineQ, hb, hd, ho, cut_plain h10]

theorem sim_put {m : CmdRun} {l : LocalRun} {s : Fd} {b : UInt8} (h : SameRun m l) (ho : (m.duct s).isOpen = true) :
    Matches (m.setDuct { m.duct s with data := (m.duct s).data ++ [b] } s) l := by
  obtain ⟨hp, hst, ch, h1, h2, h3, h4, h5⟩ := h
  have hsame : m.pc ≠ .reading ∨ b ≠ 10 → Matches (m.setDuct { m.duct s with data := (m.duct s).data ++ [b] } s) l := by
    intro hx
    refine matches_none ⟨by simpa using hp, by simpa using hst, ch, h1, ?_, ?_, by simpa using h4, fun hr => ?_⟩
    · cases s <;> simpa [CmdRun.setDuct, CmdRun.duct] using h2
    · cases s <;> simpa [CmdRun.setDuct, CmdRun.duct] using h3
    · have hr' : m.pc = .reading := by simpa using hr
      have hb : b ≠ 10 := by rcases hx with hx | hx; exact absurd hr' hx; exact hx
      obtain ⟨q1, q2⟩ := h5 hr'
      have := lineQ_put ho b
      rw [if_neg hb] at this
      cases s
      · exact ⟨by rw [q1]; exact this.symm, q2⟩
      · exact ⟨q1, by rw [q2]; exact this.symm⟩
  by_cases hr : m.pc = .reading
  · by_cases hb : b = 10
    · obtain ⟨q1, q2⟩ := h5 hr
      have hq := lineQ_put ho b
      rw [if_pos hb] at hq
      cases s with
      | out =>
        refine matches_one (.childOut (textOf ((cut (m.out.line ++ m.out.buf ++ m.out.data)).2 ++ [10]))) rfl
          (l' := { l with child := some { ch with outQ := ch.outQ ++ [_] }, outWritten := l.outWritten ++ [_] })
          (by simp only [LocalRun.step, h1]; rw [if_pos (by rw [h2]; exact ho)]) ?_
        refine ⟨hp, hst, _, rfl, h2, h3, h4, fun _ => ⟨?_, q2⟩⟩
        rw [q1]; exact hq.symm
      | err =>
        refine matches_one (.childErr (textOf ((cut (m.err.line ++ m.err.buf ++ m.err.data)).2 ++ [10]))) rfl
          (l' := { l with child := some { ch with errQ := ch.errQ ++ [_] }, errWritten := l.errWritten ++ [_] })
          (by simp only [LocalRun.step, h1]; rw [if_pos (by rw [h3]; exact ho)]) ?_
        refine ⟨hp, hst, _, rfl, h2, h3, h4, fun _ => ⟨q1, ?_⟩⟩
        rw [q2]; exact hq.symm
    · exact hsame (.inr hb)
  · exact hsame (.inl hr)

theorem sim_close {m : CmdRun} {l : LocalRun} {s : Fd} (h : SameRun m l) :
    Matches (m.setDuct { m.duct s with isOpen := false } s) l := by
  obtain ⟨hp, hst, ch, h1, h2, h3, h4, h5⟩ := h
  by_cases hx : m.pc = .reading ∧ (m.duct s).isOpen = true ∧
      (cut ((m.duct s).line ++ (m.duct s).buf ++ (m.duct s).data)).2 ≠ []
  · obtain ⟨hr, ho, ht⟩ := hx
    have hq := lineQ_close ho
    rw [if_neg ht] at hq
    obtain ⟨q1, q2⟩ := h5 hr
    cases s with
    | out =>
      refine matches_two (.childOut (textOf (cut (m.out.line ++ m.out.buf ++ m.out.data)).2)) .closeOut rfl rfl
        (l' := { l with child := some { ch with outQ := ch.outQ ++ [_] }, outWritten := l.outWritten ++ [_] })
        (by simp only [LocalRun.step, h1]; rw [if_pos (by rw [h2]; exact ho)]) rfl ?_
      refine ⟨hp, hst, _, rfl, rfl, h3, h4, fun _ => ⟨?_, q2⟩⟩
      simp only [q1]; exact hq.symm
    | err =>
      refine matches_two (.childErr (textOf (cut (m.err.line ++ m.err.buf ++ m.err.data)).2)) .closeErr rfl rfl
        (l' := { l with child := some { ch with errQ := ch.errQ ++ [_] }, errWritten := l.errWritten ++ [_] })
        (by simp only [LocalRun.step, h1]; rw [if_pos (by rw [h3]; exact ho)]) rfl ?_
      refine ⟨hp, hst, _, rfl, h2, rfl, h4, fun _ => ⟨q1, ?_⟩⟩
      simp only [q2]; exact hq.symm
  · have hq : m.pc = .reading → lineQ { m.duct s with isOpen := false } = lineQ (m.duct s) := by
      intro hr
      rcases Bool.eq_false_or_eq_true (m.duct s).isOpen with ho | ho
      · rw [lineQ_close ho]
        by_cases ht : (cut ((m.duct s).line ++ (m.duct s).buf ++ (m.duct s).data)).2 = []
        · rw [if_pos ht, List.append_nil]
        · exact absurd ⟨hr, ho, ht⟩ hx
      · exact lineQ_same rfl ho.symm
    cases s with
    | out =>
      refine matches_one .closeOut rfl (l' := { l with child := some { ch with outOpen := false } }) (by simp only [LocalRun.step, h1]) ?_
      exact ⟨hp, hst, _, rfl, rfl, h3, h4, fun hr => ⟨by rw [(h5 hr).1]; exact (hq hr).symm, (h5 hr).2⟩⟩
    | err =>
      refine matches_one .closeErr rfl (l' := { l with child := some { ch with errOpen := false } }) (by simp only [LocalRun.step, h1]) ?_
      exact ⟨hp, hst, _, rfl, h2, rfl, h4, fun hr => ⟨(h5 hr).1, by rw [(h5 hr).2]; exact (hq hr).symm⟩⟩

theorem sim_same {m : CmdRun} {l : LocalRun} {s : Fd} (h : SameRun m l) {d : Duct} (ho : d.isOpen = (m.duct s).isOpen)
    (hd : d.line ++ d.buf ++ d.data = (m.duct s).line ++ (m.duct s).buf ++ (m.duct s).data) : Matches (m.setDuct d s) l := by
  obtain ⟨hp, hst, ch, h1, h2, h3, h4, h5⟩ := h
  have hq := lineQ_same hd ho
  cases s with
  | out => exact matches_none ⟨hp, hst, ch, h1, by rw [h2]; exact ho.symm, h3, h4, fun hr => ⟨by rw [(h5 hr).1]; exact hq.symm, (h5 hr).2⟩⟩
  | err => exact matches_none ⟨hp, hst, ch, h1, h2, by rw [h3]; exact ho.symm, h4, fun hr => ⟨(h5 hr).1, by rw [(h5 hr).2]; exact hq.symm⟩⟩

/-- A failing read. -/
theorem sim_fail {m m0 : CmdRun} {l : LocalRun} {s : Fd} {e : String} (h : SameRun m0 l) (hr : m0.pc = .reading)
    (hst : m.stream = m0.stream) (ho : m.out.isOpen = m0.out.isOpen) (he : m.err.isOpen = m0.err.isOpen) (hx : m.exit = m0.exit) :
    Matches (m.fail s e) l := by
  obtain ⟨hp, hst', ch, h1, h2, h3, h4, h5⟩ := h
  rw [hr] at hp
  refine matches_one (.readOutFail e) rfl
    (l' := { l with pc := .select .waiting, stream := (l.stream.error e).1, ioErr := some e })
    (by simp only [LocalRun.step, hp]; rfl) ?_
  refine ⟨rfl, by rw [hst', ← hst]; rfl, ch, h1, by rw [h2, ← ho]; rfl, by rw [h3, ← he]; rfl, by rw [h4, ← hx]; rfl, fun hr => ?_⟩
  simp [CmdRun.fail] at hr

/-- A line is read. -/
theorem sim_say {m : CmdRun} {l : LocalRun} {s : Fd} {d : Duct} {t : String} (h : SameRun m l) (hr : m.pc = .reading)
    (ho : d.isOpen = (m.duct s).isOpen) (hq : lineQ (m.duct s) = t :: lineQ d) : Matches ((m.setDuct d s).say t s) l := by
  obtain ⟨hp, hst, ch, h1, h2, h3, h4, h5⟩ := h
  rw [hr] at hp
  obtain ⟨q1, q2⟩ := h5 hr
  cases s with
  | out =>
    have hq' : ch.outQ = t :: lineQ d := by rw [q1]; exact hq
    refine matches_one .readOut rfl (l' := { l with child := some { ch with outQ := lineQ d }, stream := (l.stream.log t).1 })
      (by simp only [LocalRun.step, hp, if_true, h1, hq']) ?_
    refine ⟨by simp only [say_pc, set_pc, hr]; exact hp, by rw [hst]; rfl, _, rfl, by rw [h2]; exact ho.symm, h3, h4, fun _ => ⟨rfl, q2⟩⟩
  | err =>
    have hq' : ch.errQ = t :: lineQ d := by rw [q2]; exact hq
    refine matches_one .readErr rfl (l' := { l with child := some { ch with errQ := lineQ d }, stream := (l.stream.error t).1 })
      (by simp only [LocalRun.step, hp, if_true, h1, hq']) ?_
    refine ⟨by simp only [say_pc, set_pc, hr]; exact hp, by rw [hst]; rfl, _, rfl, h2, by rw [h3]; exact ho.symm, h4, fun _ => ⟨q1, rfl⟩⟩

theorem sim_deliver {m : CmdRun} {l : LocalRun} {s : Fd} {d : Duct} {bs : List UInt8} (h : SameRun m l) (hr : m.pc = .reading)
    (ho : d.isOpen = (m.duct s).isOpen) (hq : lineQ (m.duct s) = textOf bs :: lineQ d) : Matches ((m.setDuct d s).deliver s bs) l := by
  unfold CmdRun.deliver
  cases ht : lineText bs with
  | some t =>
    have : textOf bs = t := by simp [textOf, ht]
    exact sim_say h hr ho (this ▸ hq)
  | none =>
    refine sim_fail h hr (by simp) ?_ ?_ (by simp)
    · cases s
      · exact ho
      · rfl
    · cases s
      · rfl
      · exact ho

theorem sim_step {m m' : CmdRun} {a : CmdAct} {l : LocalRun} (h : SameRun m l) (hs : m.step a = some m')
    (hl : m.pc = .reading → ∀ s, 10 ∉ (m.duct s).line) : Matches m' l := by
  cases a with
  | proc =>
    simp only [CmdRun.step] at hs
    cases ht : m.todo with
    | nil => rw [ht] at hs; cases hs
    | cons i rest =>
      rw [ht] at hs
      have h' : SameRun { m with todo := rest } l := ⟨h.pc, h.stream, h.child⟩
      cases i with
      | put s b =>
        simp only [CmdRun.instr] at hs
        split at hs
        · rename_i ho
          split at hs
          · cases hs; exact sim_put h' ho
          · cases hs
        · cases hs; exact matches_none h'
      | close s => simp only [CmdRun.instr] at hs; cases hs; exact sim_close h'
      | exit c =>
        simp only [CmdRun.instr] at hs
        cases hs
        obtain ⟨hp, hst, ch, h1, h2, h3, h4, h5⟩ := h'
        cases hx : m.exit with
        | none =>
          have hx' : ch.exit.isNone = true := by rw [h4]; simp [hx]
          refine matches_one (.exit c) rfl (l' := { l with child := some { ch with exit := some c } })
            (by simp only [LocalRun.step, h1]; rw [if_pos hx']) ?_
          exact ⟨hp, hst, _, rfl, h2, h3, by simp, h5⟩
        | some c' =>
          refine matches_none ⟨hp, hst, ch, h1, h2, h3, ?_, h5⟩
          rw [h4]; simp [hx]
  | fill s k =>
    simp only [CmdRun.step] at hs
    split at hs
    · rename_i hc
      cases hs
      refine sim_same h rfl ?_
      simp only [hc.2.1, List.append_nil]
      rw [List.append_assoc, List.take_append_drop]
    · cases hs
  | scan s =>
    simp only [CmdRun.step] at hs
    split at hs
    · rename_i hc
      rcases find_newline (m.duct s).buf with ⟨h1, h3⟩ | ⟨pre, more, h1, h0, h2, h3⟩
      · rw [h1] at hs
        cases hs
        exact sim_same h rfl (by simp)
      · rw [h1, h0] at hs
        cases hs
        refine sim_deliver h hc.1 rfl (lineQ_line h2 ?_)
        simp only [List.mem_append]
        exact fun h => h.elim (hl hc.1 s) h3
    · cases hs
  | eof s =>
    simp only [CmdRun.step] at hs
    split at hs
    · rename_i hc
      have hq := lineQ_last hc.2.1 hc.2.2.1 hc.2.2.2 (hl hc.1 s)
      split at hs
      · rename_i hln
        cases hs
        rw [if_pos hln] at hq
        obtain ⟨hp, hst, ch, h1, h2, h3, h4, h5⟩ := h
        rw [hc.1] at hp
        obtain ⟨q1, q2⟩ := h5 hc.1
        cases s with
        | out =>
          refine matches_one .readOut rfl (l' := { l with pc := .select .waiting })
            (by simp only [LocalRun.step, hp, if_true, h1, show ch.outQ = [] by rw [q1]; exact hq,
                  show ch.outOpen = false by rw [h2]; exact hc.2.2.2]; rfl) ?_
          exact ⟨rfl, hst, ch, h1, h2, h3, h4, fun hr => by cases hr⟩
        | err =>
          refine matches_one .readErr rfl (l' := { l with pc := .select .waiting })
            (by simp only [LocalRun.step, hp, if_true, h1, show ch.errQ = [] by rw [q2]; exact hq,
                  show ch.errOpen = false by rw [h3]; exact hc.2.2.2]; rfl) ?_
          exact ⟨rfl, hst, ch, h1, h2, h3, h4, fun hr => by cases hr⟩
      · rename_i hln
        cases hs
        rw [if_neg hln] at hq
        refine sim_deliver h hc.1 rfl ?_
        rw [hq]
        simp [lineQ, hc.2.1, hc.2.2.1, cut]
    · cases hs
  | readFail s e =>
    simp only [CmdRun.step] at hs
    split at hs
    · rename_i hc
      cases hs
      exact sim_fail h hc rfl rfl rfl rfl
    · cases hs
  | wait =>
    simp only [CmdRun.step] at hs
    split at hs
    · rename_i hc
      cases he : m.exit with
      | none => rw [he] at hs; cases hs
      | some c =>
        rw [he] at hs
        cases hs
        obtain ⟨hp, hst, ch, h1, h2, h3, h4, h5⟩ := h
        rw [hc] at hp
        refine matches_one .waitOk rfl (l' := { l with pc := .select .okDone, stream := (l.stream.endSeq (exitResult c)).1, exitSeen := some c })
          (by simp only [LocalRun.step, hp, if_true, h1, Option.bind_some, h4, he]) ?_
        exact ⟨rfl, by rw [hst], ch, h1, h2, h3, by rw [h4, he], fun hr => by cases hr⟩
    · cases hs

theorem line_clean {cap : Nat} {prog : List Instr} {acts : List CmdAct} {m : CmdRun} (h : OutputReach cap prog acts m)
    (hr : m.pc = .reading) (s : Fd) : 10 ∉ (m.duct s).line := by
  have := outInv_reach h (ts := fun s => Classical.choose (shows_total (bytesTo s prog)))
    (fun s => Classical.choose_spec (shows_total (bytesTo s prog)))
  simp only [OutInv, hr] at this
  exact this.2.line s

theorem sim_reach {cap : Nat} {prog : List Instr} {acts : List CmdAct} {m : CmdRun} (h : OutputReach cap prog acts m) {l0 : LocalRun}
    (hp : l0.pc = .select .reading) (hc : l0.child = some {}) (hs : l0.stream = {}) : Matches m l0 := by
  refine runs_induct (P := fun _ m => Matches m l0) ?_ ?_ h
  · exact matches_none ⟨hp, hs, {}, hc, rfl, rfl, rfl, fun _ => ⟨by simp [lineQ, cut], by simp [lineQ, cut]⟩⟩
  · rintro acts a m m' hr ⟨lacts, l, h1, h2, h3⟩ hst
    obtain ⟨lacts', l', g1, g2, g3⟩ := sim_step h2 hst (fun hp s => line_clean hr hp s)
    exact ⟨lacts ++ lacts', l', by rw [runs_append, h1]; exact g1, g2, by simp [h3, g3]⟩

end CmdLem
end AstroRun
