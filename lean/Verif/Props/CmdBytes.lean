import Verif.Lemmas.CmdLines

/-!
# The output of a process, byte by byte (C119)
-/

namespace AstroRun
open Spec CmdLem

/-- **C119** What an output is shown as is well defined: `Shows` gives every sequence of bytes exactly one list of texts. -/
theorem C119_meaning (bs : List UInt8) : (∃ ts, Shows bs ts) ∧ ∀ ts ts', Shows bs ts → Shows bs ts' → ts = ts' :=
  ⟨shows_total bs, fun _ _ => shows_unique⟩

/-- **C119** A process that writes lines (without newlines in them, and none ending in a carriage return), each followed by
a newline, shows exactly these; the last newline does not matter if the last line is not empty. -/
theorem C119_lines_of_text (ls : List String) (h : ∀ l ∈ ls, '\n' ∉ l.toList ∧ l.toList.getLast? ≠ some '\r') (last : String)
    (hl : '\n' ∉ last.toList) :
    Shows (ls.flatMap (fun l => utf8 l ++ [10]) ++ utf8 last) (ls ++ if last = "" then [] else [last]) := by
  have nonl : ∀ l : String, '\n' ∉ l.toList → 10 ∉ utf8 l := by
    intro l hn hx
    rw [utf8_eq, enc, List.mem_flatMap] at hx
    obtain ⟨c, hc, hx⟩ := hx
    exact hn (nl_byte c hx ▸ hc)
  induction ls with
  | nil =>
    by_cases e : last = ""
    · subst e; simp [utf8]; exact .nil
    · rw [if_neg e]
      refine .last ?_ (nonl _ hl) rfl
      intro hx
      exact e (utf8_inj (hx.trans (by simp [utf8])))
  | cons l ls ih =>
    have hl' := h l (by simp)
    have : (l :: ls).flatMap (fun l => utf8 l ++ [10]) ++ utf8 last =
        utf8 l ++ 10 :: (ls.flatMap (fun l => utf8 l ++ [10]) ++ utf8 last) := by simp
    rw [this]
    refine .line (nonl _ hl'.1) ?_ (ih fun x hx => h x (by simp [hx]))
    unfold withoutCR
    rw [if_neg]
    intro hx
    rw [utf8_eq] at hx
    exact hl'.2 ((enc_last _ '\r' 13 (by decide) rfl).1 hx)

/-- **C119** However the output is cut into chunks and however reading the two pipes is interleaved: at any time the log of
a step has a beginning of the lines of the process's standard output, in order, and a beginning of the lines of its error
output as errors; only if reading has failed, the error log has one more line, the text of the failure. -/
theorem C119_logged {cap : Nat} {prog : List Instr} {acts : List CmdAct} {m : CmdRun} (h : OutputReach cap prog acts m)
    {outs errs : List String} (ho : Shows (bytesTo .out prog) outs) (he : Shows (bytesTo .err prog) errs) :
    outLines m.stream.logs <+: outs ∧
    (errLines m.stream.logs <+: errs ∨
      (∃ s, m.why = some (.failed s)) ∧ ∃ pre e, errLines m.stream.logs = pre ++ [e] ∧ pre <+: errs) := by
  have hi := outInv_reach h (ts := fun | .out => outs | .err => errs) (fun s => by cases s; exact ho; exact he)
  unfold OutInv at hi
  split at hi
  · exact ⟨hi.2.said_prefix .out, .inl (hi.2.said_prefix .err)⟩
  · rcases hw : m.why with _ | s | s <;> rw [hw] at hi
    · exact hi.elim
    · exact ⟨hi.2 .out, .inl (hi.2 .err)⟩
    · exact ⟨hi.1, .inr ⟨⟨s, rfl⟩, hi.2.1⟩⟩

/-- **C119** If the loop ended because a pipe was at its end, every line of that pipe was logged. -/
theorem C119_complete {cap : Nat} {prog : List Instr} {acts : List CmdAct} {m : CmdRun} (h : OutputReach cap prog acts m)
    {outs errs : List String} (ho : Shows (bytesTo .out prog) outs) (he : Shows (bytesTo .err prog) errs) :
    (m.why = some (.eof .out) → outLines m.stream.logs = outs) ∧ (m.why = some (.eof .err) → errLines m.stream.logs = errs) := by
  have hi := outInv_reach h (ts := fun | .out => outs | .err => errs) (fun s => by cases s; exact ho; exact he)
  unfold OutInv at hi
  split at hi
  · exact ⟨fun hw => (by rw [hi.1] at hw; cases hw), fun hw => by rw [hi.1] at hw; cases hw⟩
  · exact ⟨fun hw => (by rw [hw] at hi; exact hi.1), fun hw => by rw [hw] at hi; exact hi.1⟩

/-- **C119** If the system calls do not fail, the only other way for the loop to end is a line that is not UTF-8: everything
before that line was logged (of its pipe), the error is logged, and nothing after it ever is. -/
theorem C119_undecodable {cap : Nat} {prog : List Instr} {acts : List CmdAct} {m : CmdRun} (h : OutputReach cap prog acts m)
    (hf : noReadFail acts) {outs errs : List String} (ho : Shows (bytesTo .out prog) outs) (he : Shows (bytesTo .err prog) errs) :
    (m.why = some (.failed .out) → outLines m.stream.logs = outs ∧ ∃ pre, errLines m.stream.logs = pre ++ ["stream did not contain valid UTF-8"] ∧ pre <+: errs) ∧
    (m.why = some (.failed .err) → errLines m.stream.logs = errs ++ ["stream did not contain valid UTF-8"] ∧ outLines m.stream.logs <+: outs) := by
  have hi := outInv_reach h (ts := fun | .out => outs | .err => errs) (fun s => by cases s; exact ho; exact he)
  unfold OutInv at hi
  split at hi
  · exact ⟨fun hw => (by rw [hi.1] at hw; cases hw), fun hw => by rw [hi.1] at hw; cases hw⟩
  · exact ⟨fun hw => (by rw [hw] at hi; exact (hi.2.2 hf).1 rfl), fun hw => by rw [hw] at hi; exact ⟨(hi.2.2 hf).2 rfl, hi.1⟩⟩

/-- **C119** Reading the output of a process that does finitely much takes finitely many moves, whatever the schedule. -/
theorem C119_finite {cap : Nat} {prog : List Instr} {acts : List CmdAct} {m : CmdRun} (h : OutputReach cap prog acts m) :
    acts.length ≤ 4 * prog.length + 2 := by
  have := work_runs h
  simp [work] at this
  omega

/-- **C119** A process that writes text, leaves its pipes open until everything is written and then ends, always gets to
its end, however small the pipes are, and the step ends with its exit status: no schedule that cannot go on stops before. -/
theorem C119_not_blocked_partial {cap : Nat} (hcap : 0 < cap) {prog : List Instr} {code : Option Int} (hp : Proper prog code)
    (ht : ∀ s, ∃ t, bytesTo s prog = utf8 t) {acts : List CmdAct} {m : CmdRun} (h : OutputReach cap prog acts m)
    (hf : noReadFail acts) (hmax : ∀ a, (∀ s e, a ≠ .readFail s e) → m.step a = none) :
    m.pc = .over ∧ m.exit = some code ∧ m.stream.result = some (exitResult code) := by
  obtain ⟨p0, p1, p2, p3, p4, p5, -⟩ := properInv_reach hp h
  obtain ⟨t1, t2⟩ := textInv_reach h hf ht
  have hproc := hmax .proc (by simp)
  have hnr : m.pc ≠ .reading := by
    intro hr
    have hmv : ∀ s, ¬ ((m.duct s).isOpen = false ∨ (m.duct s).data ≠ []) := by
      intro s hx
      obtain ⟨a, m', ha, hb⟩ := reading_moves hr s hx
      rw [hmax a hb] at ha
      cases ha
    cases hto : m.todo with
    | nil =>
      rcases Bool.eq_false_or_eq_true (m.duct .out).isOpen with ho | ho
      · have := p3 .out ho; rw [hto] at this; cases this
      · exact hmv .out (.inl ho)
    | cons i rest =>
      simp only [CmdRun.step, hto] at hproc
      have hd : ({ m with todo := rest } : CmdRun).duct = m.duct := by funext x; cases x <;> rfl
      cases i with
      | put s b =>
        simp only [CmdRun.instr, hd] at hproc
        split at hproc
        · split at hproc
          · cases hproc
          · rename_i hx
            refine hmv s (.inr fun e => hx ?_)
            rw [e]
            show 0 < m.cap
            rw [p0]; exact hcap
        · cases hproc
      | close s => simp [CmdRun.instr] at hproc
      | exit c => simp [CmdRun.instr] at hproc
  have hover : m.pc = .over := by
    cases hpc : m.pc with
    | reading => exact absurd hpc hnr
    | over => rfl
    | waiting =>
      exfalso
      obtain ⟨s, -, hs⟩ := t2 hnr
      have hends := p1 (.inl ⟨s, hs⟩)
      cases hto : m.todo with
      | nil =>
        have hw := hmax .wait (by simp)
        cases hx : m.exit with
        | none => have := p4 hx; rw [hto] at this; cases this
        | some c => simp [CmdRun.step, hpc, hx] at hw
      | cons i rest =>
        simp only [CmdRun.step, hto] at hproc
        rcases hends i (by simp [hto]) with ⟨s', e⟩ | e
        · subst e; simp [CmdRun.instr] at hproc
        · subst e; simp [CmdRun.instr] at hproc
  obtain ⟨c, h1, h2⟩ := (over_result h).2 hover
  have := p5 c h1
  subst this
  exact ⟨hover, h1, h2⟩

/-- **C119** The result of a step is the exit status of its process, and there is none before the process has exited. -/
theorem C119_result {cap : Nat} {prog : List Instr} {acts : List CmdAct} {m : CmdRun} (h : OutputReach cap prog acts m) :
    m.stream.result = if m.pc = .over then m.exit.map exitResult else none := by
  obtain ⟨h1, h2⟩ := over_result h
  split
  · rename_i hp
    obtain ⟨c, g1, g2⟩ := h2 hp
    rw [g1, g2]; rfl
  · rename_i hp
    exact h1 hp

/-- **C119** refuted for output that is not UTF-8: a process that leaves its pipes open until everything is written, and
writes one undecodable line and after it more than a pipe and a reader hold, never ends, under no schedule, and nor does its
step: every execution ends in a deadlock. -/
theorem C119_undecodable_blocks_refuted (cap : Nat) :
    ∃ prog code, Proper prog code ∧ ∀ acts m, OutputReach cap prog acts m →
      m.exit = none ∧ m.stream.result = none ∧
      ∃ more m', runs CmdRun.step m more = some m' ∧ Deadlock m' := by
  refine ⟨blockedProg (cap + 8193), some 0, ⟨_, _, rfl, ?_, by simp, by simp, by simp, by simp⟩, fun acts m h => ?_⟩
  · intro i hi
    obtain ⟨b, -, rfl⟩ := List.mem_map.1 hi
    exact ⟨.out, b, rfl⟩
  · have hb := blocked_reach (Nat.le_refl _) h
    obtain ⟨more, m', h1, h2⟩ := to_the_end m
    refine ⟨hb.exit, (over_result h).1 hb.pc, more, m', h1, ?_, h2⟩
    have h' : OutputReach cap (blockedProg (cap + 8193)) (acts ++ more) m' := by
      unfold OutputReach at *
      rw [runs_append, h]; exact h1
    exact (blocked_reach (Nat.le_refl _) h').pc

/-- A process that closes its standard output, then writes to its error output more than fits into the pipe. -/
def closesEarly (cap : Nat) : List Instr :=
  .close .out :: (List.replicate (cap + 1) (.put .err 97) ++ [.close .err, .exit (some 0)])

/-- The loop has ended at the end of the standard output; `k` bytes are to be written, `n` are in the pipe. -/
def closedEarly (cap k n : Nat) : CmdRun where
  cap := cap
  todo := List.replicate k (.put .err 97) ++ [.close .err, .exit (some 0)]
  out := { isOpen := false }
  err := { data := List.replicate n 97 }
  pc := .waiting
  why := some (.eof .out)

/-- **C119** refuted also for text, if the process closes its standard output early: it can get stuck for ever writing to its
error output, which nobody reads any more. -/
theorem C119_closed_early_refuted (cap : Nat) :
    ∃ acts m, OutputReach cap (closesEarly cap) acts m ∧ (∀ s, ∃ t, bytesTo s (closesEarly cap) = utf8 t) ∧
      m.exit = none ∧ Deadlock m := by
  have hrun : ∀ n k, n ≤ cap → runs CmdRun.step (closedEarly cap (n + k) (cap - n)) (List.replicate n .proc) =
      some (closedEarly cap k cap) := by
    intro n
    induction n with
    | zero => intro k _; simp [runs, closedEarly]
    | succ n ih =>
      intro k hn
      have hr : List.replicate (n + 1 + k) (Instr.put .err 97) = .put .err 97 :: List.replicate (n + k) (.put .err 97) := by
        rw [show n + 1 + k = (n + k) + 1 by omega]; rfl
      rw [List.replicate_succ]
      have hlen : cap - (n + 1) < cap := by omega
      simp only [runs, CmdRun.step, closedEarly, hr, List.cons_append, CmdRun.instr, CmdRun.duct, CmdRun.setDuct, List.length_replicate, hlen, if_true]
      have hd : List.replicate (cap - (n + 1)) (97 : UInt8) ++ [97] = List.replicate (cap - n) 97 := by
        rw [show cap - n = (cap - (n + 1)) + 1 by omega, List.replicate_succ']
      rw [hd]
      exact ih k (by omega)
  refine ⟨[.proc, .eof .out] ++ List.replicate cap .proc, closedEarly cap 1 cap, ?_, ?_, rfl, ?_⟩
  · unfold OutputReach
    rw [runs_append]
    have h1 : runs CmdRun.step { cap := cap, todo := closesEarly cap } [.proc, .eof .out] = some (closedEarly cap (cap + 1) 0) := rfl
    rw [h1]
    have := hrun cap 1 (Nat.le_refl _)
    rw [Nat.sub_self] at this
    exact this
  · intro s
    cases s with
    | out => exact ⟨"", by simp [closesEarly, bytesTo, utf8]⟩
    | err =>
      refine ⟨String.ofList (List.replicate (cap + 1) 'a'), ?_⟩
      rw [utf8_ofList]
      have : ∀ n, bytesTo .err (List.replicate n (.put .err 97) ++ [.close .err, .exit (some 0)]) = enc (List.replicate n 'a') := by
        intro n
        induction n with
        | zero => rfl
        | succ n ih =>
          have e : enc (List.replicate (n + 1) 'a') = 97 :: enc (List.replicate n 'a') := by
            rw [List.replicate_succ, show enc ('a' :: List.replicate n 'a') = String.utf8EncodeChar 'a' ++ enc (List.replicate n 'a') by simp [enc]]
            rfl
          rw [e, List.replicate_succ]
          simp [bytesTo, ih]
      simpa [closesEarly, bytesTo] using this (cap + 1)
  · refine ⟨by simp [closedEarly], fun a => ?_⟩
    cases a with
    | proc => simp [closedEarly, CmdRun.step, CmdRun.instr, CmdRun.duct]
    | fill s k => simp [closedEarly, CmdRun.step]
    | scan s => simp [closedEarly, CmdRun.step]
    | eof s => simp [closedEarly, CmdRun.step]
    | readFail s e => simp [closedEarly, CmdRun.step]
    | wait => simp [closedEarly, CmdRun.step]

/-- **C119** Byte by byte nothing happens that does not happen line by line: for every execution here there is one of the
local runner's step (`LocalRun`, after the spawn), made of the moves of reader and process, that writes the same log with the
same result, and in which the process has exited in the same way and closed the same pipes. -/
theorem C119_refines {cap : Nat} {prog : List Instr} {acts : List CmdAct} {m : CmdRun} (h : OutputReach cap prog acts m) {l0 : LocalRun}
    (hp : l0.pc = .select .reading) (hc : l0.child = some {}) (hs : l0.stream = {}) :
    ∃ lacts l ch, runs LocalRun.step l0 lacts = some l ∧ lacts.all cmdMove = true ∧ l.stream = m.stream ∧ l.child = some ch ∧
      ch.exit = m.exit ∧ ch.outOpen = m.out.isOpen ∧ ch.errOpen = m.err.isOpen ∧
      (m.pc = .over ↔ l.pc = .select .okDone) ∧ (m.pc = .reading ↔ l.pc = .select .reading) := by
  obtain ⟨lacts, l, h1, ⟨h2, h3, ch, h4, h5, h6, h7, -⟩, h8⟩ := sim_reach h hp hc hs
  refine ⟨lacts, l, ch, h1, h8, h3, h4, h7, h5, h6, ?_, ?_⟩
  · rw [h2]; cases m.pc <;> simp
  · rw [h2]; cases m.pc <;> simp

/-! ## Examples -/

namespace CmdEx

/-- Writes `a`, carriage return, newline and `é` to its standard output, `x` and newline to its error output. -/
def prog : List Instr :=
  [.put .out 97, .put .out 13, .put .out 10, .put .out 195, .put .err 120, .put .out 169, .put .err 10,
    .close .out, .close .err, .exit (some 3)]

theorem proper : Proper prog (some 3) :=
  ⟨prog.take 7, prog.drop 7, rfl, by simp [prog], by simp [prog], by simp [prog], by simp [prog], by simp [prog]⟩

theorem texts : ∀ s, ∃ t, bytesTo s prog = utf8 t
  | .out => ⟨"a\r\né", by decide +kernel⟩
  | .err => ⟨"x\n", by decide +kernel⟩

theorem outs : Shows (bytesTo .out prog) ["a", "é"] :=
  .line (l := [97, 13]) (rest := [195, 169]) (by decide) (by decide +kernel)
    (.last (by decide) (by decide) (by decide +kernel))

theorem errs : Shows (bytesTo .err prog) ["x"] :=
  .line (l := [120]) (rest := []) (by decide) (by decide +kernel) .nil

/-- Pipes of two bytes; a character is cut in two by the reads. -/
def acts : List CmdAct :=
  [.proc, .proc, .fill .out 2, .scan .out, .proc, .proc, .fill .out 2, .scan .out, .scan .out, .proc, .fill .err 1, .proc, .scan .err,
    .fill .out 1, .scan .out, .proc, .fill .err 1, .scan .err, .proc, .eof .out, .proc, .eof .out, .proc, .wait]

def final : CmdRun := (runs CmdRun.step { cap := 2, todo := prog } acts).getD { cap := 0, todo := [] }

theorem reached : OutputReach 2 prog acts final := by unfold OutputReach final; decide +kernel

example : final.pc = .over ∧ final.why = some (.eof .out) ∧ final.stream.logs = [⟨.log, "a"⟩, ⟨.error, "x"⟩, ⟨.log, "é"⟩] ∧
    final.stream.result = some (.failed 3) := by decide +kernel

example : noReadFail acts := by
  intro s e h
  simp [acts] at h

example : ∀ a, final.step a = none := by
  have hp : final.pc = .over := by decide +kernel
  have ht : final.todo = [] := by decide +kernel
  intro a
  cases a <;> simp [CmdRun.step, hp, ht]

/-- The third byte of the error output is not UTF-8: only the first line is logged. -/
def badProg : List Instr := [.put .err 97, .put .err 10, .put .err 255, .put .err 10, .put .err 98, .put .err 10, .put .out 99,
  .close .out, .close .err, .exit none]

theorem badErrs : Shows (bytesTo .err badProg) ["a"] :=
  .line (l := [97]) (rest := [255, 10, 98, 10]) (by decide) (by decide +kernel)
    (.bad (l := [255]) (rest := [98, 10]) (by decide) ((decode_none [255]).1 (by decide +kernel)))

def badActs : List CmdAct := [.proc, .proc, .proc, .proc, .proc, .fill .err 5, .scan .err, .scan .err]

example : ∃ m, OutputReach 65536 badProg badActs m ∧ m.why = some (.failed .err) ∧
    m.stream.logs = [⟨.error, "a"⟩, ⟨.error, "stream did not contain valid UTF-8"⟩] :=
  ⟨(runs CmdRun.step { cap := 65536, todo := badProg } badActs).getD { cap := 0, todo := [] },
    by unfold OutputReach; decide +kernel, by decide +kernel, by decide +kernel⟩

/-- A step of the local runner just after the spawn, for `C119_refines`. -/
example : ∃ l : LocalRun, l.pc = .select .reading ∧ l.child = some {} ∧ l.stream = {} :=
  ⟨{ kind := .host, pc := .select .reading, child := some {} }, rfl, rfl, rfl⟩

end CmdEx

end AstroRun
