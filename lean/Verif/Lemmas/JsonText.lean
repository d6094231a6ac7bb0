import Verif.Spec.JsonText
import Verif.Lemmas.Wire

/-! # Reading what was written -/

namespace AstroRun.Wire

variable {f : FloatText}

/-! ## Strings -/

theorem hexVal_hexDigit {d : Nat} (h : d < 16) : hexVal (hexDigit d) = some d := by
  have : ∀ d : Fin 16, hexVal (hexDigit d.1) = some d.1 := by decide
  exact this ⟨d, h⟩

theorem read_cons {p : PS} {c : Char} {r : List Char} :
    readFrom f p (c :: r) = (stepChar f p c).bind fun p => readFrom f p r := rfl

theorem read_escape (st : List Frame) (k : Bool) (acc : List Char) (c : Char) (r : List Char) :
    readFrom f ⟨st, .str k acc⟩ (escapeChar c ++ r) = readFrom f ⟨st, .str k (acc ++ [c])⟩ r := by
  unfold escapeChar
  split
  · subst_vars; simp [read_cons, stepChar]
  split
  · subst_vars; simp [read_cons, stepChar]
  have ofN : ∀ n, c.toNat = n → Char.ofNat n = c := by rintro _ rfl; exact Char.ofNat_toNat c
  split
  · rename_i h; simp only [List.cons_append, List.nil_append, read_cons, stepChar]; simp; rw [← ofN _ h]
  split
  · rename_i h; simp only [List.cons_append, List.nil_append, read_cons, stepChar]; simp; rw [← ofN _ h]
  split
  · rename_i h; simp only [List.cons_append, List.nil_append, read_cons, stepChar]; simp; rw [← ofN _ h]
  split
  · rename_i h; simp only [List.cons_append, List.nil_append, read_cons, stepChar]; simp; rw [← ofN _ h]
  split
  · rename_i h; simp only [List.cons_append, List.nil_append, read_cons, stepChar]; simp; rw [← ofN _ h]
  split
  · rename_i hlt
    have h0 : hexVal '0' = some 0 := by decide
    have h1 := hexVal_hexDigit (d := c.toNat / 16) (by omega)
    have h2 := hexVal_hexDigit (d := c.toNat % 16) (by omega)
    have hsum : 16 * (c.toNat / 16) + c.toNat % 16 = c.toNat := Nat.div_add_mod _ _
    have e1 : ¬ (0xD800 ≤ c.toNat ∧ c.toNat ≤ 0xDBFF) := by omega
    have e2 : ¬ (0xDC00 ≤ c.toNat ∧ c.toNat ≤ 0xDFFF) := by omega
    simp only [List.cons_append, List.nil_append, read_cons]
    simp only [stepChar, h0, h1, h2, Option.bind_some, List.length_nil, List.length_cons, List.nil_append,
      List.cons_append, List.foldl_cons, List.foldl_nil, endHex]
    simp [hsum, e1, e2]
  · rename_i h1 h2 _ _ _ _ _ h3
    simp [read_cons, stepChar, h1, h2, h3]

theorem read_chars (st : List Frame) (k : Bool) (l acc : List Char) (r : List Char) :
    readFrom f ⟨st, .str k acc⟩ (l.flatMap escapeChar ++ '"' :: r) =
      (endStr st k (acc ++ l)).bind fun p => readFrom f p r := by
  induction l generalizing acc with
  | nil => simp [read_cons, stepChar]
  | cons c l ih =>
    simp only [List.flatMap_cons, List.append_assoc]
    rw [read_escape, ih]
    simp

theorem read_str (st : List Frame) (b : Bool) (s : String) (r : List Char) :
    readFrom f ⟨st, .value b⟩ (printStr s ++ r) = readFrom f ⟨st, .after (.str s)⟩ r := by
  simp only [printStr, List.cons_append, read_cons, List.append_assoc, List.nil_append]
  have : stepChar f ⟨st, .value b⟩ '"' = some ⟨st, .str false []⟩ := rfl
  rw [this, Option.bind_some, read_chars]
  simp [endStr]

theorem read_key (st : List Frame) (b : Bool) (es : List (String × Json)) (k0 k : String) (r : List Char) :
    readFrom f ⟨.obj es k0 :: st, .key b⟩ (printStr k ++ ':' :: r) = readFrom f ⟨.obj es k :: st, .value false⟩ r := by
  simp only [printStr, List.cons_append, read_cons, List.append_assoc, List.nil_append]
  have : stepChar f ⟨.obj es k0 :: st, .key b⟩ '"' = some ⟨.obj es k0 :: st, .str true []⟩ := rfl
  rw [this, Option.bind_some, read_chars]
  simp only [endStr, if_true, Option.bind_some, List.nil_append, String.ofList_toList, read_cons]
  rfl

/-! ## Numbers -/

theorem takeWhile_all {p : Char → Bool} {l : List Char} (h : ∀ c ∈ l, p c = true) (r : List Char)
    (hr : ∀ c, r.head? = some c → p c = false) : (l ++ r).takeWhile p = l ∧ (l ++ r).dropWhile p = r := by
  induction l with
  | nil =>
    cases r with
    | nil => simp
    | cons c r => simp [hr c rfl]
  | cons c l ih =>
    have := ih fun x hx => h x (.tail _ hx)
    simp [h c (.head _), this.1, this.2]

theorem digits_no_zero (n : Nat) : (Nat.toDigits 10 n).head? = some '0' → Nat.toDigits 10 n = ['0'] := by
  induction n using Nat.strongRecOn with
  | _ n ih =>
    by_cases h : n < 10
    · rw [Nat.toDigits_of_lt_base h]
      intro hd; simpa using hd
    · have hb : 10 ≤ n := by omega
      rw [Nat.toDigits_of_base_le (by decide) hb]
      intro hd
      have hne : Nat.toDigits 10 (n / 10) ≠ [] := Nat.toDigits_ne_nil
      rw [List.head?_append] at hd
      cases hh : (Nat.toDigits 10 (n / 10)).head? with
      | none => exact absurd (List.head?_eq_none_iff.1 hh) hne
      | some c =>
        rw [hh] at hd
        simp only [Option.some_or, Option.some.injEq] at hd
        subst hd
        have hz := ih (n / 10) (by omega) hh
        have := congrArg (fun l => Nat.ofDigitChars 10 l 0) hz
        simp only [Nat.ofDigitChars_ten_toDigits] at this
        have h0 : Nat.ofDigitChars 10 ['0'] 0 = 0 := by decide
        omega

theorem digits_isDigit (n : Nat) : ∀ c ∈ Nat.toDigits 10 n, c.isDigit = true :=
  fun _ hc => Nat.isDigit_of_mem_toDigits (by decide) (by decide) hc

theorem digits_length (n : Nat) (h : (Nat.toDigits 10 n).head? = some '0') : (Nat.toDigits 10 n).length = 1 := by
  rw [digits_no_zero n h]; rfl

theorem numVal_nat (n : Nat) (h : n < 2 ^ 64) : numVal f (Nat.toDigits 10 n) = some (.int n) := by
  have hd := digits_isDigit n
  have hne : Nat.toDigits 10 n ≠ [] := Nat.toDigits_ne_nil
  obtain ⟨c, l, hcl⟩ := List.exists_cons_of_ne_nil hne
  have hneg : (Nat.toDigits 10 n).head? == some '-' ↔ False := by
    rw [hcl]
    simp only [List.head?_cons, beq_iff_eq, Option.some.injEq, iff_false]
    rintro rfl
    have := hd '-' (by rw [hcl]; exact .head _)
    exact absurd this (by decide)
  have ht := takeWhile_all hd [] (by simp)
  simp only [List.append_nil] at ht
  have hz : ((Nat.toDigits 10 n).head? == some '0' && (Nat.toDigits 10 n).length != 1) = false := by
    cases hh : (Nat.toDigits 10 n).head? == some '0' with
    | false => rfl
    | true => rw [digits_length n (by simpa using hh)]; rfl
  have hemp : (Nat.toDigits 10 n).isEmpty = false := by simpa using hne
  have hneg' : ((Nat.toDigits 10 n).head? == some '-') = false := by
    cases hh : (Nat.toDigits 10 n).head? == some '-' with
    | false => rfl
    | true => exact (hneg.1 hh).elim
  unfold numVal
  simp only [hneg', Bool.false_eq_true, if_false, ht.1, ht.2, hz, hemp, Nat.ofDigitChars_ten_toDigits]
  simp [h]

theorem numVal_neg (n : Nat) (h0 : 0 < n) (h : n ≤ 2 ^ 63) :
    numVal f ('-' :: Nat.toDigits 10 n) = some (.int (-n)) := by
  have hd := digits_isDigit n
  have hne : Nat.toDigits 10 n ≠ [] := Nat.toDigits_ne_nil
  have ht := takeWhile_all hd [] (by simp)
  simp only [List.append_nil] at ht
  have hz : ((Nat.toDigits 10 n).head? == some '0' && (Nat.toDigits 10 n).length != 1) = false := by
    cases hh : (Nat.toDigits 10 n).head? == some '0' with
    | false => rfl
    | true => rw [digits_length n (by simpa using hh)]; rfl
  have hemp : (Nat.toDigits 10 n).isEmpty = false := by simpa using hne
  unfold numVal
  simp only [List.head?_cons, beq_self_eq_true, if_true, List.tail_cons, ht.1, ht.2, hz, hemp,
    Nat.ofDigitChars_ten_toDigits]
  simp [h, h0]

theorem numVal_float {s : String} (h : FloatFits f s) : numVal f (f.write s).toList = some (.float s) := by
  obtain ⟨⟨sign, ds, tail, ht, hs, hne, hd, hz, htl, hv, _⟩, hr⟩ := h
  have hhead : ∀ c, tail.head? = some c → c.isDigit = false := by
    intro c hc
    cases tail with
    | nil => simp at hc
    | cons x r =>
      simp only [List.head?_cons, Option.some.injEq] at hc
      subst hc
      cases hx : x.isDigit with
      | false => rfl
      | true =>
        exfalso
        have h1 : x ≠ '.' := by rintro rfl; exact absurd hx (by decide)
        have h2 : x ≠ 'e' := by rintro rfl; exact absurd hx (by decide)
        have h3 : x ≠ 'E' := by rintro rfl; exact absurd hx (by decide)
        have : validTail (x :: r) = validExp (x :: r) := by
          unfold validTail
          split
          · rename_i heq; injection heq with e _; exact absurd e h1
          · rfl
        rw [this] at hv
        simp [validExp, h2, h3] at hv
  have tw := takeWhile_all hd tail hhead
  have hzz : (ds.head? == some '0' && ds.length != 1) = false := by
    cases hh : ds.head? == some '0' with
    | false => rfl
    | true => rw [hz (by simpa using hh)]; rfl
  have hemp : ds.isEmpty = false := by simpa using hne
  have htemp : tail.isEmpty = false := by simpa using htl
  have hback : f.read (String.ofList (f.write s).toList) = some s := by simpa using hr
  have hb2 : f.read (String.ofList (sign ++ (ds ++ tail))) = some s := by rw [← ht]; exact hback
  unfold numVal
  rw [ht]
  rcases hs with rfl | rfl
  · have hneg : ((ds ++ tail).head? == some '-') = false := by
      obtain ⟨c, l, rfl⟩ := List.exists_cons_of_ne_nil hne
      have := hd c (.head _)
      simp only [List.cons_append, List.head?_cons, beq_eq_false_iff_ne, ne_eq, Option.some.injEq]
      rintro rfl
      exact absurd this (by decide)
    simp only [List.nil_append] at hb2
    simp only [List.nil_append, hneg, Bool.false_eq_true, if_false, tw.1, tw.2, hzz, hemp, htemp, hv, hb2]
    simp
  · simp only [List.cons_append, List.nil_append] at hb2
    simp only [List.cons_append, List.nil_append, List.head?_cons, beq_self_eq_true, if_true, List.tail_cons,
      tw.1, tw.2, hzz, hemp, htemp, hv, hb2]
    simp

/-- The text ends, or what follows is punctuation. -/
def Ends (r : List Char) : Prop := ∀ c, r.head? = some c → c = ',' ∨ c = ']' ∨ c = '}'

theorem read_num_go (st : List Frame) (l tok : List Char) (hl : ∀ c ∈ l, isNumChar c = true) (r : List Char) :
    readFrom f ⟨st, .num tok⟩ (l ++ r) = readFrom f ⟨st, .num (tok ++ l)⟩ r := by
  induction l generalizing tok with
  | nil => simp
  | cons c l ih =>
    simp only [List.cons_append, read_cons, stepChar, hl c (.head _), if_true, Option.bind_some]
    rw [ih _ fun x hx => hl x (.tail _ hx)]
    simp

theorem read_num_end (st : List Frame) (tok : List Char) (j : Json) (hj : numVal f tok = some j) (r : List Char)
    (hr : Ends r) : readFrom f ⟨st, .num tok⟩ r = readFrom f ⟨st, .after j⟩ r := by
  cases r with
  | nil => cases st <;> simp [readFrom, finish, hj]
  | cons c r =>
    have hn : isNumChar c = false := by
      rcases hr c rfl with rfl | rfl | rfl <;> decide
    simp [read_cons, stepChar, hn, hj]

theorem read_num (st : List Frame) (b : Bool) (c : Char) (l : List Char) (j : Json)
    (hc : c = '-' ∨ c.isDigit = true) (hl : ∀ x ∈ l, isNumChar x = true) (hj : numVal f (c :: l) = some j)
    (r : List Char) (hr : Ends r) :
    readFrom f ⟨st, .value b⟩ (c :: l ++ r) = readFrom f ⟨st, .after j⟩ r := by
  have hstep : stepChar f ⟨st, .value b⟩ c = some ⟨st, .num [c]⟩ := by
    have ne : ∀ x : Char, x ≠ '-' → x.isDigit = false → c ≠ x := by
      intro x h1 h2 h
      subst h
      rcases hc with h | h
      · exact h1 h
      · rw [h2] at h; simp at h
    have hws : isWs c = false := by
      simp [isWs, ne ' ' (by decide) (by decide), ne '\n' (by decide) (by decide), ne '\t' (by decide) (by decide),
        ne '\r' (by decide) (by decide)]
    simp only [stepChar, stepValue, hws, ne 'n' (by decide) (by decide), ne 't' (by decide) (by decide),
      ne 'f' (by decide) (by decide), ne '"' (by decide) (by decide), ne '[' (by decide) (by decide),
      ne '{' (by decide) (by decide), Bool.false_eq_true, if_false, hc, if_true]
  simp only [List.cons_append, read_cons, hstep, Option.bind_some]
  rw [read_num_go st l [c] hl r]
  exact read_num_end st _ j (by simpa using hj) r hr

theorem digit_numChar {c : Char} (h : c.isDigit = true) : isNumChar c = true := by simp [isNumChar, h]

theorem read_int (st : List Frame) (b : Bool) (n : Int) (hn : IntFits n) (r : List Char) (hr : Ends r) :
    readFrom f ⟨st, .value b⟩ ((toString n).toList ++ r) = readFrom f ⟨st, .after (.int n)⟩ r := by
  obtain ⟨h1, h2⟩ := hn
  have hsplit : ∀ m : Nat, ∃ c l, Nat.toDigits 10 m = c :: l := fun m =>
    List.exists_cons_of_ne_nil Nat.toDigits_ne_nil
  cases n with
  | ofNat m =>
    have ht : (toString (Int.ofNat m)).toList = Nat.toDigits 10 m := by
      show (m.repr).toList = _
      simp
    obtain ⟨c, l, hcl⟩ := hsplit m
    have hd := digits_isDigit m
    rw [ht, hcl]
    refine read_num st b c l _ (.inr (hd c (by rw [hcl]; exact .head _)))
      (fun x hx => digit_numChar (hd x (by rw [hcl]; exact .tail _ hx))) ?_ r hr
    rw [← hcl]
    exact numVal_nat m (by
      have : (m : Int) < 2 ^ 64 := h2
      exact_mod_cast this)
  | negSucc m =>
    have ht : (toString (Int.negSucc m)).toList = '-' :: Nat.toDigits 10 (m + 1) := by
      show ("-" ++ (m + 1).repr).toList = _
      simp
    have hd := digits_isDigit (m + 1)
    rw [ht]
    refine read_num st b '-' _ _ (.inl rfl) (fun x hx => digit_numChar (hd x hx)) ?_ r hr
    have := numVal_neg (f := f) (m + 1) (by omega) (by
      have h3 : (-2 ^ 63 : Int) ≤ -((m : Int) + 1) := by
        have : Int.negSucc m = -((m : Int) + 1) := Int.negSucc_eq m
        rw [← this]; exact h1
      omega)
    rw [this]
    rfl

theorem read_float (st : List Frame) (b : Bool) (s : String) (hs : FloatFits f s) (r : List Char) (hr : Ends r) :
    readFrom f ⟨st, .value b⟩ ((f.write s).toList ++ r) = readFrom f ⟨st, .after (.float s)⟩ r := by
  have hv := numVal_float hs
  obtain ⟨⟨sign, ds, tail, ht, hsg, hne, hd, _, _, _, hnc⟩, _⟩ := hs
  obtain ⟨c, l, rfl⟩ := List.exists_cons_of_ne_nil hne
  rcases hsg with rfl | rfl
  · simp only [List.nil_append, List.cons_append] at ht
    rw [ht] at hv ⊢
    refine read_num st b c _ _ (.inr (hd c (.head _))) ?_ hv r hr
    intro x hx
    rcases List.mem_append.1 hx with hx | hx
    · exact digit_numChar (hd x (.tail _ hx))
    · exact hnc x hx
  · simp only [List.cons_append, List.nil_append] at ht
    rw [ht] at hv ⊢
    refine read_num st b '-' _ _ (.inl rfl) ?_ hv r hr
    intro x hx
    rcases List.mem_cons.1 hx with rfl | hx
    · exact digit_numChar (hd x (.head _))
    · rcases List.mem_append.1 hx with hx | hx
      · exact digit_numChar (hd x (.tail _ hx))
      · exact hnc x hx

/-! ## Values -/

theorem ends_items (js : List Json) (r : List Char) : Ends (printItems f js ++ r) := by
  intro c hc
  cases js <;> simp [printItems] at hc <;> simp [← hc]

theorem ends_fields (es : List (String × Json)) (r : List Char) : Ends (printFields f es ++ r) := by
  intro c hc
  cases es with
  | nil => simp [printFields] at hc; simp [← hc]
  | cons e es => obtain ⟨k, j⟩ := e; simp [printFields] at hc; simp [← hc]

mutual
theorem read_json (j : Json) (hj : Fits f j) (st : List Frame) (b : Bool) (hd : st.length + depth j ≤ 127)
    (r : List Char) (hr : Ends r) :
    readFrom f ⟨st, .value b⟩ (printJson f j ++ r) = readFrom f ⟨st, .after j⟩ r := by
  match j with
  | .null => simp [printJson, read_cons, stepChar, stepValue, isWs]
  | .bool true => simp [printJson, read_cons, stepChar, stepValue, isWs]
  | .bool false => simp [printJson, read_cons, stepChar, stepValue, isWs]
  | .int n => simp only [printJson]; exact read_int st b n (by simpa [Fits] using hj) r hr
  | .float s => simp only [printJson]; exact read_float st b s (by simpa [Fits] using hj) r hr
  | .str s => simp only [printJson]; exact read_str st b s r
  | .arr [] =>
    have : st.length < 127 := by simp [depth, depthAll] at hd; omega
    simp [printJson, read_cons, stepChar, stepValue, isWs, this]
  | .arr (j :: js) =>
    simp only [Fits, FitsAll] at hj
    simp only [depth, depthAll] at hd
    have : st.length < 127 := by omega
    simp only [printJson, List.cons_append, read_cons]
    have hs : stepChar f ⟨st, .value b⟩ '[' = some ⟨.arr [] :: st, .value true⟩ := by
      simp [stepChar, stepValue, isWs, this]
    rw [hs, Option.bind_some, List.append_assoc,
      read_json j hj.1 (.arr [] :: st) true (by simp only [List.length_cons]; omega) _ (ends_items js r),
      read_items js hj.2 st [] j (by omega) r]
    rfl
  | .obj [] =>
    have : st.length < 127 := by simp [depth, depthFields] at hd; omega
    simp [printJson, read_cons, stepChar, stepValue, isWs, this]
  | .obj ((k, j) :: es) =>
    simp only [Fits, FitsFields] at hj
    simp only [depth, depthFields] at hd
    have : st.length < 127 := by omega
    simp only [printJson, List.cons_append, read_cons]
    have hs : stepChar f ⟨st, .value b⟩ '{' = some ⟨.obj [] "" :: st, .key true⟩ := by
      simp [stepChar, stepValue, isWs, this]
    rw [hs, Option.bind_some, List.append_assoc, List.cons_append, read_key, List.append_assoc,
      read_json j hj.1 (.obj [] k :: st) false (by simp only [List.length_cons]; omega) _ (ends_fields es r),
      read_fields es hj.2 st [] k j (by omega) r]
    rfl
theorem read_items (js : List Json) (hj : FitsAll f js) (st : List Frame) (acc : List Json) (j : Json)
    (hd : st.length + (1 + depthAll js) ≤ 127) (r : List Char) :
    readFrom f ⟨.arr acc :: st, .after j⟩ (printItems f js ++ r) =
      readFrom f ⟨st, .after (.arr (acc ++ j :: js))⟩ r := by
  match js with
  | [] => simp [printItems, read_cons, stepChar, stepAfter, isWs]
  | i :: js =>
    simp only [FitsAll] at hj
    simp only [depthAll] at hd
    simp only [printItems, List.cons_append, read_cons]
    have hs : stepChar f ⟨.arr acc :: st, .after j⟩ ',' = some ⟨.arr (acc ++ [j]) :: st, .value false⟩ := by
      simp [stepChar, stepAfter, isWs]
    rw [hs, Option.bind_some, List.append_assoc,
      read_json i hj.1 (.arr (acc ++ [j]) :: st) false (by simp only [List.length_cons]; omega) _ (ends_items js r),
      read_items js hj.2 st (acc ++ [j]) i (by omega) r]
    simp
theorem read_fields (es : List (String × Json)) (hj : FitsFields f es) (st : List Frame)
    (acc : List (String × Json)) (k : String) (j : Json) (hd : st.length + (1 + depthFields es) ≤ 127) (r : List Char) :
    readFrom f ⟨.obj acc k :: st, .after j⟩ (printFields f es ++ r) =
      readFrom f ⟨st, .after (.obj (acc ++ (k, j) :: es))⟩ r := by
  match es with
  | [] => simp [printFields, read_cons, stepChar, stepAfter, isWs]
  | (k', i) :: es =>
    simp only [FitsFields] at hj
    simp only [depthFields] at hd
    simp only [printFields, List.cons_append, read_cons]
    have hs : stepChar f ⟨.obj acc k :: st, .after j⟩ ',' = some ⟨.obj (acc ++ [(k, j)]) k :: st, .key false⟩ := by
      simp [stepChar, stepAfter, isWs]
    rw [hs, Option.bind_some, List.append_assoc, List.cons_append, read_key, List.append_assoc,
      read_json i hj.1 (.obj (acc ++ [(k, j)]) k' :: st) false (by simp only [List.length_cons]; omega) _
        (ends_fields es r),
      read_fields es hj.2 st (acc ++ [(k, j)]) k' i (by omega) r]
    simp
end

/-- What was written is read back. -/
theorem parse_print (j : Json) (hj : Fits f j) (hd : depth j ≤ 127) : parseJson f (printJson f j) = some j := by
  have := read_json j hj [] false (by simpa using hd) [] (by simp [Ends])
  simpa [parseJson, readFrom, finish] using this

theorem print_ne_nil (j : Json) (hj : Fits f j) : printJson f j ≠ [] := by
  match j with
  | .null | .bool true | .bool false | .str s | .arr [] | .arr (_ :: _) | .obj [] | .obj ((_, _) :: _) =>
    simp [printJson, printStr]
  | .int n =>
    simp only [printJson]
    cases n with
    | ofNat m =>
      show m.repr.toList ≠ []
      simp
    | negSucc m =>
      show ("-" ++ (m + 1).repr).toList ≠ []
      simp
  | .float s =>
    simp only [printJson]
    simp only [Fits] at hj
    obtain ⟨⟨sign, ds, tail, ht, _, hne, _⟩, _⟩ := hj
    rw [ht]
    simp [hne]

theorem codec_size {j : Json} (hj : printJson f j ≠ []) : (codecEncode f j).size ≠ 0 := by
  unfold codecEncode
  intro h0
  have h1 : (String.ofList (printJson f j)).utf8ByteSize = 0 := h0
  have h2 : String.ofList (printJson f j) = "" := by
    simpa [String.utf8ByteSize_eq_zero_iff] using h1
  have h3 := congrArg String.toList h2
  simp at h3
  exact hj h3

theorem codec_utf8 {j : Json} : String.fromUTF8? (codecEncode f j) = some (String.ofList (printJson f j)) := by
  unfold String.fromUTF8? codecEncode
  have hv : (String.ofList (printJson f j)).toUTF8.IsValidUTF8 := (String.ofList (printJson f j)).isValidUTF8
  rw [dif_pos hv]
  rfl

theorem codec_roundtrip {α : Type} (dec : Json → Option α) (j : Json) (a : α) (hj : Fits f j) (hd : depth j ≤ 127)
    (h : dec j = some a) : codecDecode f dec (codecEncode f j) = some (some a) := by
  unfold codecDecode
  rw [if_neg (codec_size (print_ne_nil j hj)), codec_utf8]
  simp [parse_print j hj hd, h]

end AstroRun.Wire
