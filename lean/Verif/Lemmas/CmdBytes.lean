import Verif.Spec.CmdBytes
import Verif.Lemmas.Run

namespace AstroRun
open Spec

namespace CmdLem

/-- UTF-8 of a list of characters. -/
def enc (cs : List Char) : List UInt8 := cs.flatMap String.utf8EncodeChar

theorem utf8_eq (t : String) : utf8 t = enc t.toList := by
  have h : t.toUTF8 = t.toList.utf8Encode := by simp
  unfold utf8
  rw [h]
  simp [enc, List.utf8Encode]

theorem utf8_inj {s t : String} (h : utf8 s = utf8 t) : s = t := by
  have h2 : s.toByteArray = t.toByteArray := by
    have h3 : s.toUTF8.data = t.toUTF8.data := Array.toList_inj.1 h
    have : s.toUTF8 = t.toUTF8 := ByteArray.ext h3
    simpa using this
  exact String.toByteArray_inj.1 h2

theorem enc_append (a b : List Char) : enc (a ++ b) = enc a ++ enc b := by simp [enc]

/-- The last byte of a character: itself if it is ASCII, otherwise at least 128. -/
theorem last_byte (c : Char) (b : UInt8) (hb : b < 128) :
    (String.utf8EncodeChar c).getLast? = some b ↔ c.val.toNat = b.toNat := by
  have hb' : b.toNat < 128 := by simpa [UInt8.lt_iff_toNat_lt] using hb
  unfold String.utf8EncodeChar
  simp only
  split
  · rename_i h
    simp only [List.getLast?_singleton, Option.some.injEq, ← UInt8.toNat_inj, UInt8.toNat_ofNat']
    omega
  · split
    · simp only [List.getLast?_cons_cons, List.getLast?_singleton, Option.some.injEq, ← UInt8.toNat_inj, UInt8.toNat_ofNat']
      omega
    · split
      · simp only [List.getLast?_cons_cons, List.getLast?_singleton, Option.some.injEq, ← UInt8.toNat_inj, UInt8.toNat_ofNat']
        omega
      · simp only [List.getLast?_cons_cons, List.getLast?_singleton, Option.some.injEq, ← UInt8.toNat_inj, UInt8.toNat_ofNat']
        omega

theorem char_ne (c : Char) : String.utf8EncodeChar c ≠ [] := by
  unfold String.utf8EncodeChar
  simp only
  split
  · simp
  · split
    · simp
    · split <;> simp

theorem enc_last (cs : List Char) (c : Char) (b : UInt8) (hb : b < 128) (hc : c.val.toNat = b.toNat) :
    (enc cs).getLast? = some b ↔ cs.getLast? = some c := by
  rcases List.eq_nil_or_concat cs with rfl | ⟨a, x, rfl⟩
  · simp [enc]
  · have he : enc (a ++ [x]) = enc a ++ String.utf8EncodeChar x := by rw [enc_append]; simp [enc]
    have hl : (enc a ++ String.utf8EncodeChar x).getLast? = (String.utf8EncodeChar x).getLast? := by
      rw [List.getLast?_append]
      cases hx : (String.utf8EncodeChar x).getLast? with
      | none => exact absurd (List.getLast?_eq_none_iff.1 hx) (char_ne x)
      | some y => rfl
    rw [List.concat_eq_append, he, hl, last_byte x b hb]
    simp only [List.getLast?_append, List.getLast?_singleton, Option.some_or, Option.some.injEq]
    constructor
    · intro h; exact Char.ext (by rw [← UInt32.toNat_inj]; omega)
    · intro h; rw [h, hc]

theorem decode_iff (bs : List UInt8) (s : String) : String.fromUTF8? bs.toByteArray = some s ↔ bs = utf8 s := by
  unfold String.fromUTF8?
  constructor
  · intro h
    split at h
    · injection h with h
      subst h
      show bs = bs.toByteArray.data.toList
      simp
    · cases h
  · intro h
    subst h
    have e : (utf8 s).toByteArray = s.toUTF8 := by
      apply ByteArray.ext
      simp [utf8]
    have hv : s.toUTF8.IsValidUTF8 := s.isValidUTF8
    rw [e]
    rw [dif_pos hv]
    rfl

theorem decode_none (bs : List UInt8) : String.fromUTF8? bs.toByteArray = none ↔ NotText bs := by
  constructor
  · intro h t ht
    rw [(decode_iff bs t).2 ht] at h
    cases h
  · intro h
    cases hs : String.fromUTF8? bs.toByteArray with
    | none => rfl
    | some s => exact absurd ((decode_iff bs s).1 hs) (h s)

theorem enc_snoc (cs : List Char) (c : Char) : enc (cs ++ [c]) = enc cs ++ String.utf8EncodeChar c := by
  rw [enc_append]; simp [enc]

theorem enc_nl : String.utf8EncodeChar '\n' = [10] := by decide
theorem enc_cr : String.utf8EncodeChar '\r' = [13] := by decide

/-- If the bytes end with an ASCII byte, so do the characters. -/
theorem enc_split (cs : List Char) (l : List UInt8) (c : Char) (b : UInt8) (hb : b < 128) (hc : String.utf8EncodeChar c = [b])
    (hv : c.val.toNat = b.toNat) (h : enc cs = l ++ [b]) : ∃ cs', cs = cs' ++ [c] ∧ enc cs' = l := by
  have h1 : cs.getLast? = some c := (enc_last cs c b hb hv).1 (by simp [h])
  obtain ⟨cs', rfl⟩ := List.getLast?_eq_some_iff.1 h1
  refine ⟨cs', rfl, ?_⟩
  rw [enc_snoc, hc] at h
  exact List.append_cancel_right h

theorem utf8_ofList (cs : List Char) : utf8 (String.ofList cs) = enc cs := by rw [utf8_eq]; simp

/-- A line with its newline. -/
theorem text_line {l : List UInt8} {t : String} (h : lineText (l ++ [10]) = some t) : utf8 t = withoutCR l := by
  unfold lineText at h
  cases hs : String.fromUTF8? (l ++ [10]).toByteArray with
  | none => rw [hs] at h; cases h
  | some s =>
    rw [hs] at h
    have h1 := (decode_iff _ _).1 hs
    rw [utf8_eq] at h1
    obtain ⟨cs, h2, h3⟩ := enc_split s.toList l '\n' 10 (by decide) enc_nl rfl h1.symm
    simp only [Option.map_some, h2, List.getLast?_append, List.getLast?_singleton, Option.some_or, if_true,
      List.dropLast_concat] at h
    have h4 := enc_last cs '\r' 13 (by decide) rfl
    rw [h3] at h4
    unfold withoutCR
    split at h
    · rename_i hr
      rw [if_pos (h4.2 hr)]
      cases h
      obtain ⟨cs', rfl⟩ := List.getLast?_eq_some_iff.1 hr
      rw [enc_snoc, enc_cr] at h3
      rw [List.dropLast_concat, utf8_ofList, ← h3, List.dropLast_concat]
    · rename_i hr
      rw [if_neg (fun h => hr (h4.1 h))]
      cases h
      rw [utf8_ofList, h3]

theorem notText_line {l : List UInt8} (h : lineText (l ++ [10]) = none) : NotText l := by
  unfold lineText at h
  rw [Option.map_eq_none_iff, decode_none] at h
  intro t ht
  refine h (String.ofList (t.toList ++ ['\n'])) ?_
  rw [utf8_ofList, enc_snoc, enc_nl, ← utf8_eq, ht]

theorem text_last {l : List UInt8} {t : String} (h10 : 10 ∉ l) (h : lineText l = some t) : utf8 t = l := by
  unfold lineText at h
  cases hs : String.fromUTF8? l.toByteArray with
  | none => rw [hs] at h; cases h
  | some s =>
    rw [hs] at h
    have h1 := (decode_iff _ _).1 hs
    simp only [Option.map_some] at h
    have h4 := enc_last s.toList '\n' 10 (by decide) rfl
    rw [← utf8_eq, ← h1] at h4
    rw [if_neg (fun hx => h10 (List.mem_of_getLast? (h4.2 hx)))] at h
    cases h
    exact h1.symm

theorem notText_last {l : List UInt8} (h : lineText l = none) : NotText l := by
  unfold lineText at h
  rwa [Option.map_eq_none_iff, decode_none] at h

/-! ### `Shows` -/

theorem cut_unique {l l' r r' : List UInt8} (h : 10 ∉ l) (h' : 10 ∉ l') (e : l ++ 10 :: r = l' ++ 10 :: r') : l = l' ∧ r = r' := by
  induction l generalizing l' with
  | nil =>
    cases l' with
    | nil => simpa using e
    | cons x xs => simp at e h'; exact absurd e.1 h'.1
  | cons x xs ih =>
    cases l' with
    | nil => simp at e h; exact absurd e.1.symm h.1
    | cons y ys =>
      simp at e h h'
      obtain ⟨rfl, e⟩ := e
      obtain ⟨rfl, rfl⟩ := ih h.2 h'.2 e
      exact ⟨rfl, rfl⟩

theorem not_in_tail {l r l' : List UInt8} (h' : 10 ∉ l') (e : l ++ 10 :: r = l') : False := by
  subst e; simp at h'

theorem text_withoutCR {l : List UInt8} {t : String} (h : utf8 t = withoutCR l) : ¬ NotText l := by
  intro hn
  unfold withoutCR at h
  split at h
  · rename_i hr
    obtain ⟨l', rfl⟩ := List.getLast?_eq_some_iff.1 hr
    refine hn (String.ofList (t.toList ++ ['\r'])) ?_
    rw [utf8_ofList, enc_snoc, enc_cr, ← utf8_eq, h, List.dropLast_concat]
  · exact hn t h.symm

theorem shows_unique {bs : List UInt8} {ts ts' : List String} (h : Shows bs ts) (h' : Shows bs ts') : ts = ts' := by
  induction h generalizing ts' with
  | nil =>
    generalize e : ([] : List UInt8) = w at h'
    cases h' with
    | nil => rfl
    | line => simp at e
    | last h => exact absurd e.symm h
    | bad => simp at e
    | badLast => rfl
  | line h1 h2 h3 ih =>
    rename_i l rest t ts
    generalize e : l ++ 10 :: rest = w at h'
    cases h' with
    | nil => simp at e
    | line g1 g2 g3 =>
      obtain ⟨rfl, rfl⟩ := cut_unique h1 g1 e
      rw [ih g3, utf8_inj (h2.trans g2.symm)]
    | last g1 g2 => exact (not_in_tail g2 e).elim
    | bad g1 g2 =>
      obtain ⟨rfl, rfl⟩ := cut_unique h1 g1 e
      exact absurd g2 (text_withoutCR h2)
    | badLast g1 => exact (not_in_tail g1 e).elim
  | last h1 h2 h3 =>
    rename_i l t
    generalize e : l = w at h'
    cases h' with
    | nil => exact absurd e h1
    | line => exact (not_in_tail h2 e.symm).elim
    | last g1 g2 g3 => subst e; rw [utf8_inj (h3.trans g3.symm)]
    | bad => exact (not_in_tail h2 e.symm).elim
    | badLast g1 g2 => subst e; exact absurd h3.symm (g2 t)
  | bad h1 h2 =>
    rename_i l rest
    generalize e : l ++ 10 :: rest = w at h'
    cases h' with
    | nil => rfl
    | line g1 g2 g3 =>
      obtain ⟨rfl, rfl⟩ := cut_unique h1 g1 e
      exact absurd h2 (text_withoutCR g2)
    | last g1 g2 => exact (not_in_tail g2 e).elim
    | bad => rfl
    | badLast => rfl
  | badLast h1 h2 =>
    rename_i l
    generalize e : l = w at h'
    cases h' with
    | nil => rfl
    | line => exact (not_in_tail h1 e.symm).elim
    | last g1 g2 g3 => subst e; exact absurd g3.symm (h2 _)
    | bad => rfl
    | badLast => rfl

/-- A line at the beginning. -/
theorem shows_line {l rest : List UInt8} {ts : List String} (h10 : 10 ∉ l) (h : Shows (l ++ 10 :: rest) ts) :
    match lineText (l ++ [10]) with
    | some t => ∃ ts', ts = t :: ts' ∧ Shows rest ts'
    | none => ts = [] := by
  generalize e : l ++ 10 :: rest = w at h
  cases h with
  | nil => simp at e
  | last g1 g2 => exact (not_in_tail g2 e).elim
  | badLast g1 => exact (not_in_tail g1 e).elim
  | line g1 g2 g3 =>
    obtain ⟨rfl, rfl⟩ := cut_unique h10 g1 e
    cases ht : lineText (l ++ [10]) with
    | none => exact absurd (notText_line ht) (text_withoutCR g2)
    | some t' =>
      have := utf8_inj ((text_line ht).trans g2.symm)
      exact ⟨_, by rw [this], g3⟩
  | bad g1 g2 =>
    obtain ⟨rfl, rfl⟩ := cut_unique h10 g1 e
    cases ht : lineText (l ++ [10]) with
    | none => rfl
    | some t' => exact absurd g2 (text_withoutCR (text_line ht))

/-- The last line. -/
theorem shows_last {l : List UInt8} {ts : List String} (h10 : 10 ∉ l) (hn : l ≠ []) (h : Shows l ts) :
    match lineText l with
    | some t => ts = [t]
    | none => ts = [] := by
  cases h with
  | nil => exact absurd rfl hn
  | line => simp at h10
  | bad => simp at h10
  | last g1 g2 g3 =>
    cases ht : lineText l with
    | none => exact absurd g3.symm (notText_last ht _)
    | some t' => simp; exact utf8_inj (g3.trans (text_last h10 ht).symm)
  | badLast g1 g2 =>
    cases ht : lineText l with
    | none => rfl
    | some t' => exact absurd (text_last h10 ht).symm (g2 _)

theorem shows_nil {ts : List String} (h : Shows [] ts) : ts = [] := shows_unique h .nil

/-- Every output shows something. -/
theorem shows_total (bs : List UInt8) : ∃ ts, Shows bs ts := by
  generalize hn : bs.length = n
  induction n using Nat.strongRecOn generalizing bs with
  | _ n ih =>
    by_cases h : (10 : UInt8) ∈ bs
    · obtain ⟨l, rest, rfl, h10⟩ := List.eq_append_cons_of_mem h
      cases ht : lineText (l ++ [10]) with
      | none => exact ⟨[], .bad h10 (notText_line ht)⟩
      | some t =>
        obtain ⟨ts, hts⟩ := ih rest.length (by simp at hn; omega) rest rfl
        exact ⟨t :: ts, .line h10 (text_line ht) hts⟩
    · by_cases hb : bs = []
      · exact ⟨[], hb ▸ .nil⟩
      · cases ht : lineText bs with
        | none => exact ⟨[], .badLast h (notText_last ht)⟩
        | some t => exact ⟨[t], .last hb h (text_last h ht)⟩

/-! ### Moves -/

@[simp] theorem duct_set (m : CmdRun) (d : Duct) (s : Fd) : (m.setDuct d s).duct s = d := by cases s <;> rfl
theorem duct_set_ne (m : CmdRun) (d : Duct) {s s' : Fd} (h : s' ≠ s) : (m.setDuct d s).duct s' = m.duct s' := by
  cases s <;> cases s' <;> first | rfl | exact absurd rfl h
@[simp] theorem set_todo (m : CmdRun) (d : Duct) (s : Fd) : (m.setDuct d s).todo = m.todo := by cases s <;> rfl
@[simp] theorem set_pc (m : CmdRun) (d : Duct) (s : Fd) : (m.setDuct d s).pc = m.pc := by cases s <;> rfl
@[simp] theorem set_why (m : CmdRun) (d : Duct) (s : Fd) : (m.setDuct d s).why = m.why := by cases s <;> rfl
@[simp] theorem set_stream (m : CmdRun) (d : Duct) (s : Fd) : (m.setDuct d s).stream = m.stream := by cases s <;> rfl
@[simp] theorem set_exit (m : CmdRun) (d : Duct) (s : Fd) : (m.setDuct d s).exit = m.exit := by cases s <;> rfl
@[simp] theorem set_cap (m : CmdRun) (d : Duct) (s : Fd) : (m.setDuct d s).cap = m.cap := by cases s <;> rfl
@[simp] theorem say_duct (m : CmdRun) (t : String) (s s' : Fd) : (m.say t s).duct s' = m.duct s' := by cases s <;> cases s' <;> rfl
@[simp] theorem say_todo (m : CmdRun) (t : String) (s : Fd) : (m.say t s).todo = m.todo := by cases s <;> rfl
@[simp] theorem say_pc (m : CmdRun) (t : String) (s : Fd) : (m.say t s).pc = m.pc := by cases s <;> rfl
@[simp] theorem say_why (m : CmdRun) (t : String) (s : Fd) : (m.say t s).why = m.why := by cases s <;> rfl
@[simp] theorem say_exit (m : CmdRun) (t : String) (s : Fd) : (m.say t s).exit = m.exit := by cases s <;> rfl
@[simp] theorem say_cap (m : CmdRun) (t : String) (s : Fd) : (m.say t s).cap = m.cap := by cases s <;> rfl
@[simp] theorem fail_duct (m : CmdRun) (e : String) (s s' : Fd) : (m.fail s e).duct s' = m.duct s' := by cases s' <;> rfl

/-- What was logged for `s`. -/
def said (s : Fd) (m : CmdRun) : List String :=
  match s with
  | .out => outLines m.stream.logs
  | .err => errLines m.stream.logs

theorem said_set (m : CmdRun) (d : Duct) (s s' : Fd) : said s' (m.setDuct d s) = said s' m := by
  unfold said; simp

theorem said_say (m : CmdRun) (t : String) (s : Fd) : said s (m.say t s) = said s m ++ [t] := by
  cases s <;> simp [said, CmdRun.say, outLines, errLines, StreamState.log, StreamState.error, StreamState.push, Log.ofLog, Log.ofError]

theorem said_say_ne (m : CmdRun) (t : String) {s s' : Fd} (h : s' ≠ s) : said s' (m.say t s) = said s' m := by
  cases s <;> cases s' <;> first
    | exact absurd rfl h
    | simp [said, CmdRun.say, outLines, errLines, StreamState.log, StreamState.error, StreamState.push, Log.ofLog, Log.ofError]

theorem said_fail_out (m : CmdRun) (e : String) (s : Fd) : said .out (m.fail s e) = said .out m := by
  simp [said, CmdRun.fail, outLines, StreamState.error, StreamState.push, Log.ofError]

theorem said_fail_err (m : CmdRun) (e : String) (s : Fd) : said .err (m.fail s e) = said .err m ++ [e] := by
  simp [said, CmdRun.fail, errLines, StreamState.error, StreamState.push, Log.ofError]

/-- What is still to come through `s`. -/
def rem (s : Fd) (m : CmdRun) : List UInt8 :=
  (m.duct s).line ++ (m.duct s).buf ++ (m.duct s).data ++ if (m.duct s).isOpen then bytesTo s m.todo else []

/-- While the loop runs. -/
structure Reading (ts : Fd → List String) (m : CmdRun) : Prop where
  line : ∀ s, 10 ∉ (m.duct s).line
  rest : ∀ s, ∃ r, Shows (rem s m) r ∧ said s m ++ r = ts s

/-- When it is over; `ok`: no read has failed. -/
def Ended (ts : Fd → List String) (ok : Prop) (m : CmdRun) : Option LoopEnd → Prop
  | none => False
  | some (.eof s) => said s m = ts s ∧ ∀ s', said s' m <+: ts s'
  | some (.failed s) => said .out m <+: ts .out ∧ (∃ pre e, said .err m = pre ++ [e] ∧ pre <+: ts .err) ∧
      (ok → (s = .out → said .out m = ts .out ∧ ∃ pre, said .err m = pre ++ [utf8Error] ∧ pre <+: ts .err) ∧
        (s = .err → said .err m = ts .err ++ [utf8Error]))

/-- The invariant. -/
def OutInv (ts : Fd → List String) (ok : Prop) (m : CmdRun) : Prop :=
  match m.pc with
  | .reading => m.why = none ∧ Reading ts m
  | _ => Ended ts ok m m.why

theorem Reading.said_prefix {ts : Fd → List String} {m : CmdRun} (h : Reading ts m) (s : Fd) : said s m <+: ts s := by
  obtain ⟨r, -, h⟩ := h.rest s
  exact ⟨r, h⟩

/-- A move that changes neither what is said nor what is to come. -/
theorem reading_same {ts : Fd → List String} {m m' : CmdRun} (h : Reading ts m) (hl : ∀ s, 10 ∉ (m'.duct s).line)
    (hr : ∀ s, rem s m' = rem s m) (hs : ∀ s, said s m' = said s m) : Reading ts m' :=
  ⟨hl, fun s => by rw [hr, hs]; exact h.rest s⟩

theorem instr_rem {m m' : CmdRun} {i : Instr} {rest : List Instr} (ht : m.todo = i :: rest)
    (h : ({ m with todo := rest } : CmdRun).instr i = some m') (s : Fd) :
    rem s m' = rem s m ∧ (m'.duct s).line = (m.duct s).line ∧ said s m' = said s m ∧ m'.pc = m.pc ∧ m'.why = m.why := by
  have hd : ({ m with todo := rest } : CmdRun).duct = m.duct := by funext x; cases x <;> rfl
  cases i with
  | put s0 b =>
    simp only [CmdRun.instr, hd] at h
    split at h
    · rename_i ho
      split at h
      · cases h
        refine ⟨?_, ?_, by rw [said_set]; cases s <;> rfl, by simp, by simp⟩
        · by_cases e : s = s0
          · subst e
            simp [rem, ho, ht, bytesTo]
          · simp [rem, duct_set_ne _ _ e, hd, ht, bytesTo, Ne.symm e]
        · by_cases e : s = s0
          · subst e; simp
          · rw [duct_set_ne _ _ e, hd]
      · cases h
    · rename_i ho
      cases h
      refine ⟨?_, by rw [hd], by cases s <;> rfl, rfl, rfl⟩
      by_cases e : s = s0
      · subst e
        simp [rem, ho, hd]
      · simp [rem, hd, ht, bytesTo, Ne.symm e]
  | close s0 =>
    simp only [CmdRun.instr, hd] at h
    cases h
    refine ⟨?_, ?_, by rw [said_set]; cases s <;> rfl, by simp, by simp⟩
    · by_cases e : s = s0
      · subst e
        simp [rem, ht, bytesTo]
      · simp [rem, duct_set_ne _ _ e, hd, ht, bytesTo, Ne.symm e]
    · by_cases e : s = s0
      · subst e; simp
      · rw [duct_set_ne _ _ e, hd]
  | exit c =>
    simp only [CmdRun.instr] at h
    cases h
    have hd' : ({ m with todo := rest, exit := m.exit.or (some c) } : CmdRun).duct = m.duct := by funext x; cases x <;> rfl
    refine ⟨?_, by rw [hd'], by cases s <;> rfl, rfl, rfl⟩
    simp only [rem, hd', ht, bytesTo]

/-- Giving a line to the log, or failing. -/
theorem deliver_inv {ts : Fd → List String} {ok : Prop} {m m0 : CmdRun} {s : Fd} {bs : List UInt8}
    (hi : Reading ts m0) (hp : m0.pc = .reading) (hw : m0.why = none) (hpc : m.pc = .reading) (hwy : m.why = none)
    (hsaid : ∀ s, said s m = said s m0) (hne : ∀ s', s' ≠ s → m.duct s' = m0.duct s') (htodo : m.todo = m0.todo)
    (hline : 10 ∉ (m.duct s).line)
    (hshow : ∀ r, Shows (rem s m0) r →
      match lineText bs with
      | some t => ∃ r', r = t :: r' ∧ Shows (rem s m) r'
      | none => r = []) :
    OutInv ts ok (m.deliver s bs) := by
  unfold CmdRun.deliver
  obtain ⟨r, hr, hrs⟩ := hi.rest s
  have hsh := hshow r hr
  cases ht : lineText bs with
  | some t =>
    rw [ht] at hsh
    obtain ⟨r', rfl, hr'⟩ := hsh
    simp only [OutInv, say_pc, say_why, hpc, hwy]
    refine ⟨trivial, ⟨fun s' => ?_, fun s' => ?_⟩⟩
    · rw [say_duct]
      by_cases e : s' = s
      · subst e; exact hline
      · rw [hne s' e]; exact hi.line s'
    · by_cases e : s' = s
      · subst e
        refine ⟨r', ?_, ?_⟩
        · simpa [rem] using hr'
        · rw [said_say, hsaid, List.append_assoc]; exact hrs
      · obtain ⟨x, hx, hxs⟩ := hi.rest s'
        refine ⟨x, ?_, ?_⟩
        · simpa [rem, hne s' e, htodo] using hx
        · rw [said_say_ne _ _ e, hsaid]; exact hxs
  | none =>
    rw [ht] at hsh
    subst hsh
    have hp : (m.fail s utf8Error).pc = .waiting := rfl
    simp only [OutInv, hp, CmdRun.fail, Ended]
    have ho : said .out (m.fail s utf8Error) = said .out m0 := by rw [said_fail_out, hsaid]
    have he : said .err (m.fail s utf8Error) = said .err m0 ++ [utf8Error] := by rw [said_fail_err, hsaid]
    unfold CmdRun.fail at ho he
    rw [ho, he]
    refine ⟨hi.said_prefix .out, ⟨_, _, rfl, hi.said_prefix .err⟩, fun _ => ⟨?_, ?_⟩⟩
    · rintro rfl
      exact ⟨by simpa using hrs, _, rfl, hi.said_prefix .err⟩
    · rintro rfl
      rw [show said .err m0 = ts .err by simpa using hrs]

theorem find_newline (buf : List UInt8) :
    (buf.dropWhile (· != 10) = [] ∧ 10 ∉ buf) ∨
    (∃ pre more, buf.dropWhile (· != 10) = 10 :: more ∧ buf.takeWhile (· != 10) = pre ∧ buf = pre ++ 10 :: more ∧ 10 ∉ pre) := by
  have hcat := List.takeWhile_append_dropWhile (p := (· != (10 : UInt8))) (l := buf)
  have hpre : ∀ x ∈ buf.takeWhile (· != (10 : UInt8)), x ≠ 10 := by
    intro x hx
    have := List.all_takeWhile (p := (· != (10 : UInt8))) (l := buf)
    rw [List.all_eq_true] at this
    simpa using this x hx
  cases hd : buf.dropWhile (· != (10 : UInt8)) with
  | nil =>
    left
    rw [hd, List.append_nil] at hcat
    refine ⟨rfl, fun h => ?_⟩
    rw [hcat] at hpre
    exact hpre 10 h rfl
  | cons x more =>
    right
    have hx : x = 10 := by
      have := List.head?_dropWhile_not (· != (10 : UInt8)) buf
      rw [hd] at this
      simpa using this
    subst hx
    rw [hd] at hcat
    exact ⟨_, more, rfl, rfl, hcat.symm, fun h => hpre 10 h rfl⟩

theorem ended_congr {ts : Fd → List String} {ok ok' : Prop} (hok : ok' → ok) {m m' : CmdRun} (hs : ∀ s, said s m' = said s m)
    {w : Option LoopEnd} (h : Ended ts ok m w) : Ended ts ok' m' w := by
  rcases w with _ | _ | s
  · exact h
  · simpa only [Ended, hs] using h
  · simp only [Ended, hs] at h ⊢
    exact ⟨h.1, h.2.1, fun x => h.2.2 (hok x)⟩

theorem outInv_step {ts : Fd → List String} {ok ok' : Prop} (hok : ok' → ok) {m m' : CmdRun} {a : CmdAct} (h : m.step a = some m')
    (ha : ok' → ∀ s e, a ≠ .readFail s e)
    (hi : OutInv ts ok m) : OutInv ts ok' m' := by
  cases a with
  | proc =>
    simp only [CmdRun.step] at h
    cases ht : m.todo with
    | nil => rw [ht] at h; cases h
    | cons i rest =>
      rw [ht] at h
      have := instr_rem ht h
      have hpc := (this .out).2.2.2.1
      have hwy := (this .out).2.2.2.2
      unfold OutInv at *
      rw [hpc]
      cases hp : m.pc with
      | reading =>
        rw [hp] at hi
        exact ⟨hwy ▸ hi.1, reading_same hi.2 (fun s => by rw [(this s).2.1]; exact hi.2.line s) (fun s => (this s).1)
          (fun s => (this s).2.2.1)⟩
      | waiting =>
        rw [hp] at hi
        simp only at hi ⊢
        rw [hwy]
        exact ended_congr hok (fun s => (this s).2.2.1) hi
      | over =>
        rw [hp] at hi
        simp only at hi ⊢
        rw [hwy]
        exact ended_congr hok (fun s => (this s).2.2.1) hi
  | fill s k =>
    simp only [CmdRun.step] at h
    split at h
    · rename_i hc
      cases h
      simp only [OutInv, hc.1, set_pc, set_why] at hi ⊢
      refine ⟨hi.1, reading_same hi.2 (fun s' => ?_) (fun s' => ?_) (fun s' => said_set _ _ _ _)⟩
      · by_cases e : s' = s
        · subst e; simpa using hi.2.line s'
        · rw [duct_set_ne _ _ e]; exact hi.2.line s'
      · by_cases e : s' = s
        · subst e
          simp only [rem, duct_set, set_todo, hc.2.1, List.append_nil]
          rw [List.append_assoc _ (List.take k _), List.take_append_drop]
        · simp [rem, duct_set_ne _ _ e]
    · cases h
  | scan s =>
    simp only [CmdRun.step] at h
    split at h
    · rename_i hc
      simp only [OutInv, hc.1] at hi
      rcases find_newline (m.duct s).buf with ⟨h1, h3⟩ | ⟨pre, more, h1, h0, h2, h3⟩
      · rw [h1] at h
        cases h
        simp only [OutInv, hc.1, set_pc, set_why]
        refine ⟨hi.1, reading_same hi.2 (fun s' => ?_) (fun s' => ?_) (fun s' => said_set _ _ _ _)⟩
        · by_cases e : s' = s
          · subst e
            have := hi.2.line s'
            simp only [duct_set, List.mem_append]
            exact fun h => h.elim this h3
          · rw [duct_set_ne _ _ e]; exact hi.2.line s'
        · by_cases e : s' = s
          · subst e
            simp [rem]
          · simp [rem, duct_set_ne _ _ e]
      · rw [h1, h0] at h
        cases h
        have hl : 10 ∉ (m.duct s).line ++ pre := by
          simp only [List.mem_append]
          exact fun h => h.elim (hi.2.line s) h3
        refine deliver_inv (m0 := m) hi.2 hc.1 hi.1 (by simp [hc.1]) (by simp [hi.1]) (fun s' => said_set _ _ _ _)
          (fun s' e => duct_set_ne _ _ e) (by simp) (by simp) (fun r hr => ?_)
        have e : rem s m = ((m.duct s).line ++ pre) ++ 10 :: rem s (m.setDuct { m.duct s with buf := more, line := [] } s) := by
          simp [rem, h2]
        rw [e] at hr
        exact shows_line hl hr
    · cases h
  | eof s =>
    simp only [CmdRun.step] at h
    split at h
    · rename_i hc
      simp only [OutInv, hc.1] at hi
      have hrem : rem s m = (m.duct s).line := by simp [rem, hc.2.1, hc.2.2.1, hc.2.2.2]
      split at h
      · rename_i hl
        cases h
        simp only [OutInv, Ended]
        obtain ⟨r, hr, hrs⟩ := hi.2.rest s
        rw [hrem, hl] at hr
        rw [shows_nil hr, List.append_nil] at hrs
        exact ⟨hrs, fun s' => hi.2.said_prefix s'⟩
      · rename_i hl
        cases h
        refine deliver_inv (m0 := m) hi.2 hc.1 hi.1 (by simp [hc.1]) (by simp [hi.1]) (fun s' => said_set _ _ _ _)
          (fun s' e => duct_set_ne _ _ e) (by simp) (by simp) (fun r hr => ?_)
        rw [hrem] at hr
        have := shows_last (hi.2.line s) hl hr
        cases ht : lineText (m.duct s).line with
        | none => rw [ht] at this; exact this
        | some t =>
          rw [ht] at this
          refine ⟨[], this, ?_⟩
          simp only [rem, duct_set, hc.2.1, hc.2.2.1, hc.2.2.2]
          exact .nil
    · cases h
  | readFail s e =>
    simp only [CmdRun.step] at h
    split at h
    · rename_i hc
      cases h
      simp only [OutInv, hc] at hi
      have hp : (m.fail s e).pc = .waiting := rfl
      simp only [OutInv, hp, CmdRun.fail, Ended]
      have ho := said_fail_out m e s
      have he := said_fail_err m e s
      unfold CmdRun.fail at ho he
      rw [ho, he]
      exact ⟨hi.2.said_prefix .out, ⟨_, _, rfl, hi.2.said_prefix .err⟩, fun h => absurd rfl (ha h s e)⟩
    · cases h
  | wait =>
    simp only [CmdRun.step] at h
    split at h
    · rename_i hc
      cases he : m.exit with
      | none => rw [he] at h; cases h
      | some code =>
        rw [he] at h
        cases h
        have hs : ∀ s, said s { m with pc := .over, stream := (m.stream.endSeq (exitResult code)).1 } = said s m := by
          intro s
          have : (m.stream.endSeq (exitResult code)).1.logs = m.stream.logs := by
            unfold StreamState.endSeq; split <;> rfl
          cases s <;> simp [said, this]
        simp only [OutInv, hc] at hi ⊢
        exact ended_congr hok hs hi
    · cases h

theorem bytesTo_start (cap : Nat) (prog : List Instr) (s : Fd) : rem s { cap := cap, todo := prog } = bytesTo s prog := by
  cases s <;> simp [rem, CmdRun.duct]

theorem outInv_reach {cap : Nat} {prog : List Instr} {acts : List CmdAct} {m : CmdRun} (h : OutputReach cap prog acts m)
    {ts : Fd → List String} (hts : ∀ s, Shows (bytesTo s prog) (ts s)) : OutInv ts (noReadFail acts) m := by
  refine runs_induct (P := fun acts m => OutInv ts (noReadFail acts) m) ?_ ?_ h
  · refine ⟨rfl, fun s => ?_, fun s => ⟨ts s, ?_, ?_⟩⟩
    · cases s <;> simp [CmdRun.duct]
    · rw [bytesTo_start]; exact hts s
    · cases s <;> simp [said, outLines, errLines]
  · intro acts a m m' _ hi hs
    exact outInv_step (fun h s e hm => h s e (List.mem_append.2 (.inl hm))) hs
      (fun h s e hae => h s e (List.mem_append.2 (.inr (by simp [hae])))) hi

/-! ### Every schedule ends -/

/-- How much can still happen. -/
def work (m : CmdRun) : Nat :=
  4 * m.todo.length + (3 * m.out.data.length + 2 * m.out.buf.length + m.out.line.length) +
    (3 * m.err.data.length + 2 * m.err.buf.length + m.err.line.length) +
    match m.pc with
    | .reading => 2
    | .waiting => 1
    | .over => 0

def weight (d : Duct) : Nat := 3 * d.data.length + 2 * d.buf.length + d.line.length

def pcWeight : CmdLoop → Nat
  | .reading => 2
  | .waiting => 1
  | .over => 0

theorem work_eq (m : CmdRun) (s : Fd) :
    ∃ k, work m = 4 * m.todo.length + weight (m.duct s) + k + pcWeight m.pc ∧
      ∀ d, work (m.setDuct d s) = 4 * m.todo.length + weight d + k + pcWeight m.pc := by
  cases s
  · exact ⟨weight m.err, by cases h : m.pc <;> simp [work, weight, pcWeight, CmdRun.duct, h],
      fun d => by cases h : m.pc <;> simp [work, weight, pcWeight, CmdRun.setDuct, h]⟩
  · exact ⟨weight m.out, by cases h : m.pc <;> simp [work, weight, pcWeight, CmdRun.duct, h] <;> omega,
      fun d => by cases h : m.pc <;> simp [work, weight, pcWeight, CmdRun.setDuct, h] <;> omega⟩

theorem work_deliver (m : CmdRun) (s : Fd) (bs : List UInt8) (hp : m.pc = .reading) : work (m.deliver s bs) ≤ work m := by
  unfold CmdRun.deliver
  cases lineText bs with
  | some t => cases s <;> simp [CmdRun.say, work]
  | none => simp [CmdRun.fail, work, hp]

theorem work_step {m m' : CmdRun} {a : CmdAct} (h : m.step a = some m') : work m' < work m := by
  cases a with
  | proc =>
    simp only [CmdRun.step] at h
    cases ht : m.todo with
    | nil => rw [ht] at h; cases h
    | cons i rest =>
      rw [ht] at h
      have hw : work m = work { m with todo := rest } + 4 := by simp [work, ht]; omega
      cases i with
      | put s b =>
        simp only [CmdRun.instr] at h
        obtain ⟨k, h1, h2⟩ := work_eq { m with todo := rest } s
        split at h
        · split at h
          · cases h
            rw [h2, hw, h1]
            simp [weight]; omega
          · cases h
        · cases h; omega
      | close s =>
        simp only [CmdRun.instr] at h
        cases h
        obtain ⟨k, h1, h2⟩ := work_eq { m with todo := rest } s
        rw [h2, hw, h1]
        simp [weight]
      | exit c =>
        simp only [CmdRun.instr] at h
        cases h
        rw [hw]
        simp [work]
  | fill s k =>
    simp only [CmdRun.step] at h
    split at h
    · rename_i hc
      cases h
      obtain ⟨x, h1, h2⟩ := work_eq m s
      rw [h1, h2]
      simp [weight, hc.2.1, List.length_take]
      omega
    · cases h
  | scan s =>
    simp only [CmdRun.step] at h
    split at h
    · rename_i hc
      obtain ⟨x, h1, h2⟩ := work_eq m s
      have hb := List.length_pos_iff.2 hc.2
      rcases find_newline (m.duct s).buf with ⟨g1, g3⟩ | ⟨pre, more, g1, g0, g2, g3⟩
      · rw [g1] at h
        cases h
        rw [h1, h2]
        simp [weight]
        omega
      · rw [g1, g0] at h
        cases h
        refine Nat.lt_of_le_of_lt (work_deliver _ _ _ (by simp [hc.1])) ?_
        rw [h1, h2]
        simp [weight, g2]
        omega
    · cases h
  | eof s =>
    simp only [CmdRun.step] at h
    split at h
    · rename_i hc
      split at h
      · cases h
        simp [work, hc.1]
      · rename_i hl
        cases h
        refine Nat.lt_of_le_of_lt (work_deliver _ _ _ (by simp [hc.1])) ?_
        obtain ⟨x, h1, h2⟩ := work_eq m s
        have hb := List.length_pos_iff.2 hl
        rw [h1, h2]
        simp [weight]
        omega
    · cases h
  | readFail s e =>
    simp only [CmdRun.step] at h
    split at h
    · rename_i hc
      cases h
      simp [CmdRun.fail, work, hc]
    · cases h
  | wait =>
    simp only [CmdRun.step] at h
    split at h
    · rename_i hc
      cases he : m.exit with
      | none => rw [he] at h; cases h
      | some code =>
        rw [he] at h
        cases h
        simp [work, hc]
    · cases h

theorem work_runs {m m' : CmdRun} {acts : List CmdAct} (h : runs CmdRun.step m acts = some m') :
    acts.length + work m' ≤ work m := by
  induction acts generalizing m with
  | nil => simp only [runs, Option.some.injEq] at h; subst h; simp
  | cons a as ih =>
    simp only [runs] at h
    cases hs : m.step a with
    | none => rw [hs] at h; cases h
    | some m1 =>
      rw [hs] at h
      have := ih h
      have := work_step hs
      simp only [List.length_cons]; omega

/-! ### A proper process -/

/-- What a step leaves alone. -/
theorem step_frame {m m' : CmdRun} {a : CmdAct} (h : m.step a = some m') (ha : a ≠ .proc) :
    m'.todo = m.todo ∧ m'.exit = m.exit ∧ m'.cap = m.cap ∧ ∀ s, (m'.duct s).isOpen = (m.duct s).isOpen := by
  have hdel : ∀ (x : CmdRun) s bs, (x.deliver s bs).todo = x.todo ∧ (x.deliver s bs).exit = x.exit ∧
      (x.deliver s bs).cap = x.cap ∧ ∀ s', (x.deliver s bs).duct s' = x.duct s' := by
    intro x s bs
    unfold CmdRun.deliver
    cases lineText bs with
    | some t => simp
    | none => exact ⟨rfl, rfl, rfl, fun s' => fail_duct _ _ _ _⟩
  have hset : ∀ (x : CmdRun) d s, d.isOpen = (x.duct s).isOpen → ∀ s', ((x.setDuct d s).duct s').isOpen = (x.duct s').isOpen := by
    intro x d s e s'
    by_cases h : s' = s
    · subst h; simp [e]
    · rw [duct_set_ne _ _ h]
  cases a with
  | proc => exact absurd rfl ha
  | fill s k =>
    simp only [CmdRun.step] at h
    split at h
    · cases h
      exact ⟨by simp, by simp, by simp, hset _ _ _ rfl⟩
    · cases h
  | scan s =>
    simp only [CmdRun.step] at h
    split at h
    · split at h
      · cases h
        exact ⟨by simp, by simp, by simp, hset _ _ _ rfl⟩
      · cases h
        obtain ⟨h1, h2, h3, h4⟩ := hdel (m.setDuct { m.duct s with buf := _, line := [] } s) s
          ((m.duct s).line ++ (m.duct s).buf.takeWhile (· != 10) ++ [_])
        exact ⟨by rw [h1]; simp, by rw [h2]; simp, by rw [h3]; simp, fun s' => by rw [h4]; exact hset m { m.duct s with buf := _, line := [] } s rfl s'⟩
    · cases h
  | eof s =>
    simp only [CmdRun.step] at h
    split at h
    · split at h
      · cases h
        exact ⟨rfl, rfl, rfl, fun s' => by cases s' <;> rfl⟩
      · cases h
        obtain ⟨h1, h2, h3, h4⟩ := hdel (m.setDuct { m.duct s with line := [] } s) s (m.duct s).line
        exact ⟨by rw [h1]; simp, by rw [h2]; simp, by rw [h3]; simp, fun s' => by rw [h4]; exact hset m { m.duct s with line := [] } s rfl s'⟩
    · cases h
  | readFail s e =>
    simp only [CmdRun.step] at h
    split at h
    · cases h
      exact ⟨rfl, rfl, rfl, fun s' => by rw [fail_duct]⟩
    · cases h
  | wait =>
    simp only [CmdRun.step] at h
    split at h
    · split at h
      · cases h
        exact ⟨rfl, rfl, rfl, fun s' => by cases s' <;> rfl⟩
      · cases h
    · cases h

/-- A process that leaves its pipes open until all is written: either it is still writing, both pipes are open and it has
not exited, or only ends remain. -/
def ProperInv (code : Option Int) (cap : Nat) (m : CmdRun) : Prop :=
  m.cap = cap ∧
  ((∃ s, (m.duct s).isOpen = false) ∨ m.exit.isSome → ∀ i ∈ m.todo, (∃ s, i = .close s) ∨ i = .exit code) ∧
  (∀ i ∈ m.todo, (∃ s b, i = .put s b) ∨ (∃ s, i = .close s) ∨ i = .exit code) ∧
  (∀ s, (m.duct s).isOpen = true → .close s ∈ m.todo) ∧
  (m.exit = none → .exit code ∈ m.todo) ∧ (∀ c, m.exit = some c → c = code) ∧
  (∃ w e, m.todo = w ++ e ∧ (∀ i ∈ w, ∃ s b, i = .put s b) ∧ (∀ i ∈ e, (∃ s, i = .close s) ∨ i = .exit code))

theorem properInv_step {code : Option Int} {cap : Nat} {m m' : CmdRun} {a : CmdAct} (h : m.step a = some m')
    (hi : ProperInv code cap m) : ProperInv code cap m' := by
  by_cases ha : a = .proc
  · subst ha
    obtain ⟨h0, h1, h2, h3, h4, h5, w, e, h6, h7, h8⟩ := hi
    simp only [CmdRun.step] at h
    cases ht : m.todo with
    | nil => rw [ht] at h; cases h
    | cons i rest =>
      rw [ht] at h h1 h2 h3 h4 h6
      have hd : ({ m with todo := rest } : CmdRun).duct = m.duct := by funext x; cases x <;> rfl
      have hw : ∃ w' e', rest = w' ++ e' ∧ (∀ i ∈ w', ∃ s b, i = .put s b) ∧ (∀ i ∈ e', (∃ s, i = .close s) ∨ i = .exit code) ∧
          ((∃ s, i = .close s) ∨ i = .exit code → w' = []) := by
        cases w with
        | nil =>
          cases e with
          | nil => cases h6
          | cons x xs =>
            simp only [List.nil_append, List.cons.injEq] at h6
            exact ⟨[], xs, h6.2, by simp, fun j hj => h8 j (List.mem_cons_of_mem _ hj), fun _ => rfl⟩
        | cons x xs =>
          simp only [List.cons_append, List.cons.injEq] at h6
          refine ⟨xs, e, h6.2, fun j hj => h7 j (List.mem_cons_of_mem _ hj), h8, fun hx => ?_⟩
          obtain ⟨s, b, hsb⟩ := h7 x List.mem_cons_self
          rw [h6.1, hsb] at hx
          rcases hx with ⟨s, hx⟩ | hx <;> cases hx
      obtain ⟨w', e', g1, g2, g3, g4⟩ := hw
      have hrest : ((∃ s, i = .close s) ∨ i = .exit code) → ∀ j ∈ rest, (∃ s, j = .close s) ∨ j = .exit code := by
        intro hx j hj
        rw [g1, g4 hx] at hj
        exact g3 j (by simpa using hj)
      cases i with
      | put s b =>
        simp only [CmdRun.instr, hd] at h
        have hnc : ¬ ((∃ s', (m.duct s').isOpen = false) ∨ m.exit.isSome) := by
          intro hx
          rcases h1 hx _ List.mem_cons_self with ⟨s', e⟩ | e <;> cases e
        have h4' : m.exit = none → .exit code ∈ rest := fun hx => by simpa using h4 hx
        split at h
        · rename_i ho
          split at h
          · cases h
            have hop : ∀ s', ((({ m with todo := rest } : CmdRun).setDuct { m.duct s with data := (m.duct s).data ++ [b] } s).duct s').isOpen
                = (m.duct s').isOpen := by
              intro s'
              by_cases e : s' = s
              · subst e; simp
              · rw [duct_set_ne _ _ e, hd]
            refine ⟨by simpa using h0, ?_, ?_, ?_, ?_, ?_, w', e', ?_, g2, g3⟩
            · intro hx
              simp only [hop, set_exit] at hx
              exact absurd hx hnc
            · intro j hj; exact h2 j (by simp at hj; simp [hj])
            · intro s' hs'
              rw [hop] at hs'
              simpa using h3 s' hs'
            · simpa using h4'
            · simpa using h5
            · simpa using g1
          · cases h
        · rename_i ho
          exact absurd (Or.inl ⟨s, by simpa using ho⟩) hnc
      | close s =>
        simp only [CmdRun.instr, hd] at h
        cases h
        have h4' : m.exit = none → .exit code ∈ rest := fun hx => by simpa using h4 hx
        refine ⟨by simpa using h0, ?_, ?_, ?_, ?_, ?_, w', e', ?_, g2, g3⟩
        · intro _ j hj
          exact hrest (.inl ⟨s, rfl⟩) j (by simpa using hj)
        · intro j hj; exact h2 j (by simp at hj; simp [hj])
        · intro s' hs'
          by_cases e : s' = s
          · subst e; simp at hs'
          · rw [duct_set_ne _ _ e, hd] at hs'
            have := h3 s' hs'
            simp only [List.mem_cons, Instr.close.injEq, e, false_or] at this
            simpa using this
        · simpa using h4'
        · simpa using h5
        · simpa using g1
      | exit c =>
        simp only [CmdRun.instr] at h
        have hc : c = code := by
          rcases h2 _ List.mem_cons_self with ⟨_, _, e⟩ | ⟨_, e⟩ | e
          · cases e
          · cases e
          · cases e; rfl
        subst hc
        cases h
        have hd' : ({ m with todo := rest, exit := m.exit.or (some c) } : CmdRun).duct = m.duct := by funext x; cases x <;> rfl
        refine ⟨h0, ?_, ?_, ?_, ?_, ?_, w', e', g1, g2, g3⟩
        · intro _ j hj
          exact hrest (.inr rfl) j hj
        · intro j hj; exact h2 j (List.mem_cons_of_mem _ hj)
        · intro s' hs'
          rw [hd'] at hs'
          simpa using h3 s' hs'
        · intro hx; cases hm : m.exit <;> simp [hm] at hx
        · intro x hx
          cases hm : m.exit with
          | none => simp [hm] at hx; exact hx.symm
          | some y => simp [hm] at hx; subst hx; exact h5 _ hm
  · obtain ⟨e1, e2, e3, e4⟩ := step_frame h ha
    unfold ProperInv at *
    rw [e1, e2, e3]
    simp only [e4]
    exact hi

theorem properInv_reach {cap : Nat} {prog : List Instr} {code : Option Int} (hp : Proper prog code) {acts : List CmdAct} {m : CmdRun}
    (h : OutputReach cap prog acts m) : ProperInv code cap m := by
  refine runs_induct (P := fun _ m => ProperInv code cap m) ?_ (fun _ a m m' _ hi hs => properInv_step hs hi) h
  obtain ⟨w, e, rfl, h1, h2, h3, h4, h5⟩ := hp
  refine ⟨rfl, ?_, ?_, ?_, ?_, ?_, w, e, rfl, h1, h2⟩
  · rintro (⟨s, hs⟩ | hs)
    · cases s <;> simp [CmdRun.duct] at hs
    · simp at hs
  · intro i hi
    rcases List.mem_append.1 hi with hi | hi
    · exact .inl (h1 i hi)
    · exact .inr (h2 i hi)
  · intro s _
    cases s <;> simp [h3, h4]
  · intro _; simp [h5]
  · intro c hc; simp at hc

/-- The result of the stream, once the run is over. -/
theorem over_result {cap : Nat} {prog : List Instr} {acts : List CmdAct} {m : CmdRun} (h : OutputReach cap prog acts m) :
    (m.pc ≠ .over → m.stream.result = none) ∧ (m.pc = .over → ∃ c, m.exit = some c ∧ m.stream.result = some (exitResult c)) := by
  refine runs_induct (P := fun _ m => (m.pc ≠ .over → m.stream.result = none) ∧
    (m.pc = .over → ∃ c, m.exit = some c ∧ m.stream.result = some (exitResult c))) ?_ ?_ h
  · exact ⟨fun _ => rfl, fun h => by cases h⟩
  · intro acts a m m' _ hi hs
    have hdel : ∀ (x : CmdRun) s bs, (x.deliver s bs).stream.result = x.stream.result ∧
        (x.pc ≠ .over → (x.deliver s bs).pc ≠ .over) := by
      intro x s bs
      unfold CmdRun.deliver
      cases lineText bs with
      | some t => cases s <;> exact ⟨rfl, fun h => h⟩
      | none => exact ⟨rfl, fun _ h => by cases h⟩
    cases a with
    | proc =>
      simp only [CmdRun.step] at hs
      cases ht : m.todo with
      | nil => rw [ht] at hs; cases hs
      | cons i rest =>
        rw [ht] at hs
        have hpc := (instr_rem ht hs .out).2.2.2.1
        have : m'.stream = m.stream ∧ (∀ c, m.exit = some c → m'.exit = some c) := by
          cases i with
          | put s b =>
            simp only [CmdRun.instr] at hs
            split at hs
            · split at hs
              · cases hs; simp
              · cases hs
            · cases hs; simp
          | close s => simp only [CmdRun.instr] at hs; cases hs; simp
          | exit c => simp only [CmdRun.instr] at hs; cases hs; exact ⟨rfl, fun c hc => by simp [hc]⟩
        rw [hpc, this.1]
        exact ⟨hi.1, fun h => by obtain ⟨c, h1, h2⟩ := hi.2 h; exact ⟨c, this.2 c h1, h2⟩⟩
    | fill s k =>
      simp only [CmdRun.step] at hs
      split at hs
      · cases hs; simpa using hi
      · cases hs
    | scan s =>
      simp only [CmdRun.step] at hs
      split at hs
      · rename_i hc
        split at hs
        · cases hs; simpa using hi
        · cases hs
          have hn : m.pc ≠ .over := by simp [hc.1]
          refine ⟨fun _ => by rw [(hdel _ _ _).1]; simpa using hi.1 hn, fun h => absurd h ((hdel _ _ _).2 (by simp [hc.1]))⟩
      · cases hs
    | eof s =>
      simp only [CmdRun.step] at hs
      split at hs
      · rename_i hc
        have hn : m.pc ≠ .over := by simp [hc.1]
        split at hs
        · cases hs; exact ⟨fun _ => hi.1 hn, fun h => by cases h⟩
        · cases hs
          refine ⟨fun _ => by rw [(hdel _ _ _).1]; simpa using hi.1 hn, fun h => absurd h ((hdel _ _ _).2 (by simp [hc.1]))⟩
      · cases hs
    | readFail s e =>
      simp only [CmdRun.step] at hs
      split at hs
      · rename_i hc
        cases hs
        exact ⟨fun _ => hi.1 (by simp [hc]), fun h => by cases h⟩
      · cases hs
    | wait =>
      simp only [CmdRun.step] at hs
      split at hs
      · rename_i hc
        cases he : m.exit with
        | none => rw [he] at hs; cases hs
        | some c =>
          rw [he] at hs
          cases hs
          refine ⟨fun h => absurd rfl h, fun _ => ⟨c, by simp [he], ?_⟩⟩
          have := hi.1 (by simp [hc])
          simp [StreamState.endSeq, StreamState.isEnded, this, StreamState.endWrite]
      · cases hs

/-- While the loop runs, there is a move, unless the process has to go on and can. -/
theorem reading_moves {m : CmdRun} (hp : m.pc = .reading) (s : Fd) (h : (m.duct s).isOpen = false ∨ (m.duct s).data ≠ []) :
    ∃ a m', m.step a = some m' ∧ ∀ s e, a ≠ .readFail s e := by
  by_cases hb : (m.duct s).buf = []
  · by_cases hd : (m.duct s).data = []
    · have ho : (m.duct s).isOpen = false := by
        rcases h with h | h
        · exact h
        · exact absurd hd h
      refine ⟨.eof s, ?_⟩
      simp only [CmdRun.step, hp, hb, hd, ho, and_self, if_true]
      split <;> exact ⟨_, rfl, by simp⟩
    · refine ⟨.fill s 1, ?_⟩
      have : 1 ≤ (m.duct s).data.length := List.length_pos_iff.2 hd
      simp only [CmdRun.step, hp, hb, true_and]
      rw [if_pos ⟨Nat.le_refl 1, by decide, this⟩]
      exact ⟨_, rfl, by simp⟩
  · refine ⟨.scan s, ?_⟩
    simp only [CmdRun.step, hp, hb, ne_eq, not_false_eq_true, and_self, if_true]
    split <;> exact ⟨_, rfl, by simp⟩

/-! ### Text -/

/-- No byte of a character but newline is a newline. -/
theorem nl_byte (c : Char) (h : 10 ∈ String.utf8EncodeChar c) : c = '\n' := by
  unfold String.utf8EncodeChar at h
  simp only at h
  have key : ∀ n, (10 : UInt8) = UInt8.ofNat n ↔ n % 256 = 10 := by
    intro n
    rw [← UInt8.toNat_inj, UInt8.toNat_ofNat']
    constructor <;> intro h <;> simpa using h.symm
  have hv : c.val.toNat = 10 := by
    split at h
    · simp only [List.mem_singleton, key] at h; omega
    · split at h
      · simp only [List.mem_cons, List.not_mem_nil, or_false, key] at h; omega
      · split at h
        · simp only [List.mem_cons, List.not_mem_nil, or_false, key] at h; omega
        · simp only [List.mem_cons, List.not_mem_nil, or_false, key] at h; omega
  exact Char.ext (by rw [← UInt32.toNat_inj, hv]; rfl)

/-- A text is cut at its first newline byte. -/
theorem text_cut (cs : List Char) {l rest : List UInt8} (h10 : 10 ∉ l) (h : enc cs = l ++ 10 :: rest) :
    ∃ a b, enc a = l ∧ enc b = rest := by
  induction cs generalizing l with
  | nil => simp [enc] at h
  | cons c cs ih =>
    have hc : enc (c :: cs) = String.utf8EncodeChar c ++ enc cs := by simp [enc]
    rw [hc] at h
    by_cases e : c = '\n'
    · subst e
      rw [enc_nl] at h
      cases l with
      | nil => exact ⟨[], cs, rfl, by simpa using h⟩
      | cons x xs => simp at h h10; exact absurd h.1 h10.1
    · rcases List.append_eq_append_iff.1 h with ⟨x, h1, h2⟩ | ⟨x, h1, h2⟩
      · obtain ⟨a, b, ha, hb⟩ := ih (l := x) (fun hx => h10 (by rw [h1]; simp [hx])) h2
        refine ⟨c :: a, b, ?_, hb⟩
        rw [show enc (c :: a) = String.utf8EncodeChar c ++ enc a by simp [enc], ha, h1]
      · cases x with
        | nil =>
          simp only [List.append_nil, List.nil_append] at h1 h2
          obtain ⟨a, b, ha, hb⟩ := ih (l := []) (by simp) (by simpa using h2.symm)
          refine ⟨c :: a, b, ?_, hb⟩
          rw [show enc (c :: a) = String.utf8EncodeChar c ++ enc a by simp [enc], ha, ← h1]; simp
        | cons y ys =>
          simp only [List.cons_append, List.cons.injEq] at h2
          exact absurd (nl_byte c (by rw [h1, ← h2.1]; simp)) e

/-- The rest of the output is text. -/
def TextLeft (m : CmdRun) : Prop :=
  m.pc = .reading → ∀ s, 10 ∉ (m.duct s).line ∧ ∃ cs, rem s m = enc cs

theorem deliver_ok {m : CmdRun} {s : Fd} {bs : List UInt8} {t : String} (h : lineText bs = some t) : m.deliver s bs = m.say t s := by
  unfold CmdRun.deliver; rw [h]

theorem text_some {cs : List Char} : ∃ t, lineText (enc cs ++ [10]) = some t := by
  cases h : lineText (enc cs ++ [10]) with
  | some t => exact ⟨t, rfl⟩
  | none => exact absurd (by rw [utf8_ofList]) (notText_line h (String.ofList cs))

theorem text_some_last {cs : List Char} : ∃ t, lineText (enc cs) = some t := by
  cases h : lineText (enc cs) with
  | some t => exact ⟨t, rfl⟩
  | none => exact absurd (by rw [utf8_ofList]) (notText_last h (String.ofList cs))

/-- Reading text never fails by itself, and ends only at the end of a pipe. -/
def TextInv (m : CmdRun) : Prop :=
  TextLeft m ∧ (m.pc ≠ .reading → ∃ s, m.why = some (.eof s) ∧ (m.duct s).isOpen = false)

theorem textInv_step {m m' : CmdRun} {a : CmdAct} (h : m.step a = some m') (ha : ∀ s e, a ≠ .readFail s e)
    (hi : TextInv m) : TextInv m' := by
  obtain ⟨hl, hw⟩ := hi
  cases a with
  | proc =>
    simp only [CmdRun.step] at h
    cases ht : m.todo with
    | nil => rw [ht] at h; cases h
    | cons i rest =>
      rw [ht] at h
      have := instr_rem ht h
      refine ⟨fun hp s => ?_, fun hp => ?_⟩
      · rw [(this s).2.1, (this s).1]
        exact hl (by rw [← (this s).2.2.2.1]; exact hp) s
      · obtain ⟨s, h1, h2⟩ := hw (by rw [← (this .out).2.2.2.1]; exact hp)
        refine ⟨s, by rw [(this s).2.2.2.2]; exact h1, ?_⟩
        have hd : ({ m with todo := rest } : CmdRun).duct = m.duct := by funext x; cases x <;> rfl
        cases i with
        | put s0 b =>
          simp only [CmdRun.instr, hd] at h
          split at h
          · rename_i ho
            split at h
            · cases h
              by_cases e : s = s0
              · subst e; rw [h2] at ho; cases ho
              · rw [duct_set_ne _ _ e, hd]; exact h2
            · cases h
          · cases h; rw [hd]; exact h2
        | close s0 =>
          simp only [CmdRun.instr, hd] at h
          cases h
          by_cases e : s = s0
          · subst e; simp
          · rw [duct_set_ne _ _ e, hd]; exact h2
        | exit c =>
          simp only [CmdRun.instr] at h
          cases h
          cases s <;> exact h2
  | fill s k =>
    simp only [CmdRun.step] at h
    split at h
    · rename_i hc
      cases h
      refine ⟨fun hp s' => ?_, fun hp => absurd (by simp [hc.1]) hp⟩
      by_cases e : s' = s
      · subst e
        refine ⟨by simpa using (hl hc.1 s').1, ?_⟩
        obtain ⟨cs, hcs⟩ := (hl hc.1 s').2
        refine ⟨cs, hcs ▸ ?_⟩
        simp only [rem, duct_set, set_todo, hc.2.1, List.append_nil]
        rw [List.append_assoc _ (List.take k _), List.take_append_drop]
      · simpa [rem, duct_set_ne _ _ e] using hl hc.1 s'
    · cases h
  | scan s =>
    simp only [CmdRun.step] at h
    split at h
    · rename_i hc
      rcases find_newline (m.duct s).buf with ⟨h1, h3⟩ | ⟨pre, more, h1, h0, h2, h3⟩
      · rw [h1] at h
        cases h
        refine ⟨fun hp s' => ?_, fun hp => absurd (by simp [hc.1]) hp⟩
        by_cases e : s' = s
        · subst e
          refine ⟨?_, ?_⟩
          · simp only [duct_set, List.mem_append]
            exact fun h => h.elim (hl hc.1 s').1 h3
          · obtain ⟨cs, hcs⟩ := (hl hc.1 s').2
            exact ⟨cs, hcs ▸ by simp [rem]⟩
        · simpa [rem, duct_set_ne _ _ e] using hl hc.1 s'
      · rw [h1, h0] at h
        cases h
        have hl10 : 10 ∉ (m.duct s).line ++ pre := by
          simp only [List.mem_append]
          exact fun h => h.elim (hl hc.1 s).1 h3
        obtain ⟨cs, hcs⟩ := (hl hc.1 s).2
        have e : rem s m = ((m.duct s).line ++ pre) ++ 10 :: rem s (m.setDuct { m.duct s with buf := more, line := [] } s) := by
          simp [rem, h2]
        rw [e] at hcs
        obtain ⟨a, b, ea, eb⟩ := text_cut cs hl10 hcs.symm
        obtain ⟨t, htx⟩ := text_some (cs := a)
        rw [ea] at htx
        rw [deliver_ok htx]
        refine ⟨fun hp s' => ?_, fun hp => absurd (by simp [hc.1]) hp⟩
        by_cases e : s' = s
        · subst e
          exact ⟨by simp, b, by rw [eb]; simp [rem]⟩
        · simpa [rem, duct_set_ne _ _ e] using hl hc.1 s'
    · cases h
  | eof s =>
    simp only [CmdRun.step] at h
    split at h
    · rename_i hc
      split at h
      · cases h
        exact ⟨fun hp => (by cases hp), fun _ => ⟨s, rfl, by cases s <;> exact hc.2.2.2⟩⟩
      · cases h
        obtain ⟨cs, hcs⟩ := (hl hc.1 s).2
        have hrem : rem s m = (m.duct s).line := by simp [rem, hc.2.1, hc.2.2.1, hc.2.2.2]
        obtain ⟨t, htx⟩ := text_some_last (cs := cs)
        rw [← hcs, hrem] at htx
        rw [deliver_ok htx]
        refine ⟨fun hp s' => ?_, fun hp => absurd (by simp [hc.1]) hp⟩
        by_cases e : s' = s
        · subst e
          exact ⟨by simp, [], by simp [rem, hc.2.1, hc.2.2.1, hc.2.2.2, enc]⟩
        · simpa [rem, duct_set_ne _ _ e] using hl hc.1 s'
    · cases h
  | readFail s e => exact absurd rfl (ha s e)
  | wait =>
    simp only [CmdRun.step] at h
    split at h
    · rename_i hc
      cases he : m.exit with
      | none => rw [he] at h; cases h
      | some code =>
        rw [he] at h
        cases h
        refine ⟨fun hp => (by cases hp), fun _ => ?_⟩
        obtain ⟨s, h1, h2⟩ := hw (by simp [hc])
        exact ⟨s, h1, by cases s <;> exact h2⟩
    · cases h

theorem textInv_reach {cap : Nat} {prog : List Instr} {acts : List CmdAct} {m : CmdRun} (h : OutputReach cap prog acts m)
    (hf : noReadFail acts) (ht : ∀ s, ∃ t, bytesTo s prog = utf8 t) : TextInv m := by
  refine runs_induct (P := fun acts m => noReadFail acts → TextInv m) ?_ ?_ h hf
  · intro _
    refine ⟨fun _ s => ⟨by cases s <;> simp [CmdRun.duct], ?_⟩, fun hp => absurd rfl hp⟩
    obtain ⟨t, ht⟩ := ht s
    exact ⟨t.toList, by rw [bytesTo_start, ht, utf8_eq]⟩
  · intro acts a m m' _ hi hs hf
    exact textInv_step hs (fun s e hae => hf s e (List.mem_append.2 (.inr (by simp [hae]))))
      (hi fun s e hm => hf s e (List.mem_append.2 (.inl hm)))

/-! ### A process that is blocked for ever -/

/-- Writes a line that is not UTF-8 and then more than fits into the pipe. -/
def blockedBytes (c : Nat) : List UInt8 := 255 :: 10 :: List.replicate c 97

def blockedProg (c : Nat) : List Instr := (blockedBytes c).map (Instr.put .out) ++ [.close .out, .close .err, .exit (some 0)]

structure Blocked (cap c : Nat) (m : CmdRun) : Prop where
  same : m.cap = cap
  opened : m.out.isOpen = true
  err : m.err = {}
  exit : m.exit = none
  pc : m.pc ≠ .over
  full : m.out.data.length ≤ cap
  prog : ∃ n, m.todo = (blockedProg c).drop n ∧ n ≤ 8193 + m.out.data.length ∧
    (m.pc = .reading → m.out.line ++ m.out.buf ++ m.out.data = (blockedBytes c).take n ∧
      (m.out.line = [] ∨ m.out.line = [255]) ∧ m.out.buf.length ≤ 8192)

theorem bad_line : lineText [255, 10] = none := by decide +kernel

theorem blocked_start (cap c : Nat) : Blocked cap c { cap := cap, todo := blockedProg c } :=
  ⟨rfl, rfl, rfl, rfl, by simp, by simp, 0, rfl, by simp, fun _ => ⟨by simp, .inl rfl, by simp⟩⟩

theorem blocked_next {c n : Nat} (h : n < c + 2) :
    ∃ b, (blockedProg c).drop n = .put .out b :: (blockedProg c).drop (n + 1) ∧
      (blockedBytes c).take (n + 1) = (blockedBytes c).take n ++ [b] := by
  have hl : (blockedBytes c).length = c + 2 := by simp [blockedBytes]
  have hn : n < (blockedBytes c).length := by omega
  refine ⟨(blockedBytes c)[n], ?_, ?_⟩
  · rw [List.drop_eq_getElem_cons (by simp [blockedProg]; omega)]
    congr 1
    simp only [blockedProg]
    rw [List.getElem_append_left (by simpa using hn)]
    simp
  · rw [List.take_add_one, List.getElem?_eq_getElem hn]; rfl

theorem blocked_step {cap c : Nat} (hbig : cap + 8193 ≤ c) {m m' : CmdRun} {a : CmdAct} (h : m.step a = some m') (hi : Blocked cap c m) : Blocked cap c m' := by
  obtain ⟨n, h1, h2, h3⟩ := hi.prog
  have herr : m.duct .err = {} := hi.err
  have hout : m.duct .out = m.out := rfl
  cases a with
  | proc =>
    simp only [CmdRun.step] at h
    obtain ⟨b, g1, g2⟩ := blocked_next (c := c) (n := n) (by have := hi.full; omega)
    rw [h1, g1] at h
    simp only [CmdRun.instr] at h
    rw [if_pos (by exact hi.opened)] at h
    split at h
    · rename_i hc
      cases h
      have hc' : m.out.data.length < cap := by rw [← hi.same]; exact hc
      refine ⟨hi.same, hi.opened, hi.err, hi.exit, hi.pc, ?_, n + 1, rfl, ?_, fun hp => ?_⟩
      · simp [CmdRun.setDuct, CmdRun.duct]; omega
      · simp [CmdRun.setDuct, CmdRun.duct]; omega
      · obtain ⟨a1, a2, a3⟩ := h3 hp
        refine ⟨?_, a2, a3⟩
        rw [g2, ← a1]
        simp [CmdRun.setDuct, CmdRun.duct]
    · cases h
  | fill s k =>
    simp only [CmdRun.step] at h
    split at h
    · rename_i hc
      cases s with
      | err => rw [herr] at hc; simp at hc; omega
      | out =>
        cases h
        obtain ⟨a1, a2, a3⟩ := h3 hc.1
        rw [hout] at *
        have hll : m.out.line.length ≤ 1 := by rcases a2 with a2 | a2 <;> simp [a2]
        have hn : (blockedBytes c).take n = m.out.line ++ m.out.data := by rw [← a1, hc.2.1]; simp
        have hlen : n = m.out.line.length + m.out.data.length := by
          have := congrArg List.length hn
          have hl : (blockedBytes c).length = c + 2 := by simp [blockedBytes]
          have := hi.full
          simp [List.length_take, hl] at *
          omega
        have hkb : k ≤ 8192 := hc.2.2.2.1
        refine ⟨hi.same, hi.opened, hi.err, hi.exit, hi.pc, ?_, n, h1, ?_, fun hp => ⟨?_, a2, ?_⟩⟩
        · simp [CmdRun.setDuct]; have := hi.full; omega
        · simp [CmdRun.setDuct]; omega
        · rw [hn]
          simp [CmdRun.setDuct]
        · simp [CmdRun.setDuct]; omega
    · cases h
  | scan s =>
    simp only [CmdRun.step] at h
    split at h
    · rename_i hc
      cases s with
      | err => rw [herr] at hc; simp at hc
      | out =>
        obtain ⟨a1, a2, a3⟩ := h3 hc.1
        rw [hout] at h hc
        have hfail : ∀ more, Blocked cap c (({ m with out := { m.out with buf := more, line := [] } } : CmdRun).deliver .out [255, 10]) := by
          intro more
          unfold CmdRun.deliver
          rw [bad_line]
          exact ⟨hi.same, hi.opened, hi.err, hi.exit, by simp [CmdRun.fail], hi.full, n, h1, h2, fun hp => by simp [CmdRun.fail] at hp⟩
        rcases a2 with a2 | a2
        · rw [a2] at a1 h
          cases hb : m.out.buf with
          | nil => exact absurd hb hc.2
          | cons x xs =>
            rw [hb] at a1 h
            have hx : x = 255 := by
              cases n with
              | zero => simp at a1
              | succ n => simp [blockedBytes] at a1; exact a1.1
            subst hx
            cases xs with
            | nil =>
              simp only [List.dropWhile_cons, List.dropWhile_nil] at h
              cases h
              refine ⟨hi.same, hi.opened, hi.err, hi.exit, hi.pc, hi.full, n, h1, h2, fun hp => ⟨?_, ?_, ?_⟩⟩
              · simpa [CmdRun.setDuct] using a1
              · simp [CmdRun.setDuct]
              · simp [CmdRun.setDuct]
            | cons y ys =>
              have hy : y = 10 := by
                cases n with
                | zero => simp at a1
                | succ n =>
                  cases n with
                  | zero => simp [blockedBytes] at a1
                  | succ n => simp [blockedBytes] at a1; exact a1.1
              subst hy
              have hd : List.dropWhile (· != (10 : UInt8)) (255 :: 10 :: ys) = 10 :: ys := by simp [List.dropWhile_cons]
              have htk : List.takeWhile (· != (10 : UInt8)) (255 :: 10 :: ys) = [255] := by simp [List.takeWhile_cons]
              rw [hd, htk] at h
              cases h
              exact hfail ys
        · rw [a2] at a1 h
          cases hb : m.out.buf with
          | nil => exact absurd hb hc.2
          | cons x xs =>
            rw [hb] at a1 h
            have hx : x = 10 := by
              cases n with
              | zero => simp at a1
              | succ n =>
                cases n with
                | zero => simp [blockedBytes] at a1
                | succ n => simp [blockedBytes] at a1; exact a1.1
            subst hx
            have hd : List.dropWhile (· != (10 : UInt8)) (10 :: xs) = 10 :: xs := by simp [List.dropWhile_cons]
            have htk : List.takeWhile (· != (10 : UInt8)) (10 :: xs) = [] := by simp [List.takeWhile_cons]
            rw [hd, htk] at h
            cases h
            exact hfail xs
    · cases h
  | eof s =>
    simp only [CmdRun.step] at h
    split at h
    · rename_i hc
      cases s with
      | err => rw [herr] at hc; simp at hc
      | out => rw [hout, hi.opened] at hc; simp at hc
    · cases h
  | readFail s e =>
    simp only [CmdRun.step] at h
    split at h
    · cases h
      exact ⟨hi.same, hi.opened, hi.err, hi.exit, by simp [CmdRun.fail], hi.full, n, h1, h2, fun hp => by simp [CmdRun.fail] at hp⟩
    · cases h
  | wait =>
    simp only [CmdRun.step, hi.exit] at h
    split at h <;> cases h

theorem blocked_reach {cap c : Nat} (hbig : cap + 8193 ≤ c) {acts : List CmdAct} {m : CmdRun} (h : OutputReach cap (blockedProg c) acts m) : Blocked cap c m :=
  runs_induct (P := fun _ m => Blocked cap c m) (blocked_start cap c) (fun _ _ _ _ _ hi hs => blocked_step hbig hs hi) h

/-- Every state leads to one from which nothing is possible. -/
theorem to_the_end (m : CmdRun) : ∃ acts m', runs CmdRun.step m acts = some m' ∧ ∀ a, m'.step a = none := by
  generalize hn : work m = n
  induction n using Nat.strongRecOn generalizing m with
  | _ n ih =>
    by_cases h : ∀ a, m.step a = none
    · exact ⟨[], m, rfl, h⟩
    · have h : ∃ a, m.step a ≠ none := Classical.byContradiction fun hx => h fun a => Classical.byContradiction fun hy => hx ⟨a, hy⟩
      obtain ⟨a, ha⟩ := h
      obtain ⟨m1, hm1⟩ := Option.ne_none_iff_exists'.1 ha
      obtain ⟨acts, m', h1, h2⟩ := ih (work m1) (hn ▸ work_step hm1) m1 rfl
      exact ⟨a :: acts, m', by simp [runs, hm1, h1], h2⟩

end CmdLem
end AstroRun
