import Verif.Lemmas.JsonText
import Verif.Spec.JsonGrammar

/-! # The reader accepts exactly the JSON texts -/

namespace AstroRun.Wire
open AstroRun.Spec

variable {f : FloatText}

/-! ## Numbers -/

theorem isDigit_iff (c : Char) : c.isDigit = true ↔ '0' ≤ c ∧ c ≤ '9' := by
  simp only [Char.isDigit, Bool.and_eq_true, decide_eq_true_eq, Char.le_def, ge_iff_le]

theorem digits_iff (t : List Char) : Digits t ↔ ∀ c ∈ t, c.isDigit = true := by
  simp only [Digits, isDigit_iff]

theorem digits_all (t : List Char) : t.all Char.isDigit = true ↔ Digits t := by
  rw [digits_iff, List.all_eq_true]

theorem natOf_eq (t : List Char) (n : Nat) : natOf t n = Nat.ofDigitChars 10 t n := by
  induction t generalizing n with
  | nil => rfl
  | cons c t ih => rw [natOf, ih]; simp [Nat.ofDigitChars]

theorem validExp_iff (r : List Char) : validExp r = true ↔ r = [] ∨ Exp r := by
  constructor
  · intro h
    cases r with
    | nil => exact .inl rfl
    | cons e r =>
      right
      simp only [validExp, Bool.and_eq_true, Bool.or_eq_true, beq_iff_eq] at h
      obtain ⟨he, h⟩ := h
      split at h
      · simp only [Bool.and_eq_true, Bool.not_eq_true', List.isEmpty_eq_false_iff, digits_all] at h
        exact Exp.mk (sign := ['+']) he (.inr (.inl rfl)) h.1 h.2
      · simp only [Bool.and_eq_true, Bool.not_eq_true', List.isEmpty_eq_false_iff, digits_all] at h
        exact Exp.mk (sign := ['-']) he (.inr (.inr rfl)) h.1 h.2
      · simp only [Bool.and_eq_true, Bool.not_eq_true', List.isEmpty_eq_false_iff, digits_all] at h
        exact Exp.mk (sign := []) he (.inl rfl) h.1 h.2
  · rintro (rfl | ⟨he, hs, hn, hd⟩)
    · rfl
    · rename_i e sign t
      simp only [validExp, Bool.and_eq_true, Bool.or_eq_true, beq_iff_eq]
      refine ⟨he, ?_⟩
      rcases hs with rfl | rfl | rfl
      · simp only [List.nil_append]
        split
        · rename_i d
          have := (digits_iff _).1 hd '+' (.head _)
          exact absurd this (by decide)
        · rename_i d
          have := (digits_iff _).1 hd '-' (.head _)
          exact absurd this (by decide)
        · simp [hn, (digits_all _).2 hd]
      · simp [hn]; exact (digits_iff _).1 hd
      · simp [hn]; exact (digits_iff _).1 hd

theorem exp_head {r : List Char} (h : r = [] ∨ Exp r) : ∀ c, r.head? = some c → c.isDigit = false := by
  rcases h with rfl | ⟨he, _, _, _⟩
  · simp
  · intro c hc
    simp only [List.head?_cons, Option.some.injEq] at hc
    subst hc
    rcases he with rfl | rfl <;> decide

theorem validTail_iff (r : List Char) :
    validTail r = true ↔ ∃ frac exp, r = frac ++ exp ∧ (frac = [] ∨ Frac frac) ∧ (exp = [] ∨ Exp exp) := by
  constructor
  · intro h
    unfold validTail at h
    split at h
    · rename_i r
      simp only [Bool.and_eq_true, Bool.not_eq_true', List.isEmpty_eq_false_iff, validExp_iff] at h
      refine ⟨'.' :: r.takeWhile Char.isDigit, r.dropWhile Char.isDigit, ?_, .inr (.mk h.1 ?_), h.2⟩
      · simp [List.takeWhile_append_dropWhile]
      · rw [digits_iff]
        intro c hc
        exact List.all_eq_true.1 (List.all_takeWhile) c hc
    · exact ⟨[], r, rfl, .inl rfl, (validExp_iff _).1 h⟩
  · rintro ⟨frac, exp, rfl, hf, he⟩
    rcases hf with rfl | ⟨hn, hd⟩
    · have hv := (validExp_iff _).2 he
      simp only [List.nil_append]
      unfold validTail
      split
      · rcases he with h | h
        · exact absurd h (by simp)
        · cases h with
          | mk h => rcases h with h | h <;> exact absurd h (by decide)
      · exact hv
    · rename_i t
      have ht := takeWhile_all ((digits_iff _).1 hd) exp (exp_head he)
      simp only [List.cons_append, validTail, ht.1, ht.2, (validExp_iff _).2 he]
      simp [hn]

/-- The head of what follows the digits is not a digit. -/
theorem tail_head {frac exp : List Char} (hf : frac = [] ∨ Frac frac) (he : exp = [] ∨ Exp exp) :
    ∀ c, (frac ++ exp).head? = some c → c.isDigit = false := by
  rcases hf with rfl | ⟨_, _⟩
  · exact exp_head he
  · intro c hc
    simp only [List.cons_append, List.head?_cons, Option.some.injEq] at hc
    subst hc
    decide

theorem intPart_head {t : List Char} (h : IntPart t) : ∀ r, ((t ++ r).head? == some '-') = false := by
  intro r
  obtain ⟨c, l, rfl⟩ := List.exists_cons_of_ne_nil h.1
  have hd := (digits_iff _).1 h.2.1 c (.head _)
  simp only [List.cons_append, List.head?_cons, beq_eq_false_iff_ne, ne_eq, Option.some.injEq]
  rintro rfl
  exact absurd hd (by decide)

theorem intPart_ok {t : List Char} (h : IntPart t) :
    (t.isEmpty || (t.head? == some '0' && t.length != 1)) = false := by
  have h1 : t.isEmpty = false := by simpa using h.1
  rw [h1]
  cases hh : t.head? == some '0' with
  | false => rfl
  | true => rw [h.2.2 (by simpa using hh)]; rfl

/-- The text of a number, cut as `numVal` cuts it. -/
theorem numVal_cut {minus t r : List Char} (hm : minus = [] ∨ minus = ['-']) (ht : IntPart t)
    (hr : ∀ c, r.head? = some c → c.isDigit = false) :
    numVal f (minus ++ t ++ r) =
      if r = [] ∧ minus = [] ∧ natOf t 0 < 2 ^ 64 then some (.int (natOf t 0))
      else if r = [] ∧ minus = ['-'] ∧ 0 < natOf t 0 ∧ natOf t 0 ≤ 2 ^ 63 then some (.int (-(natOf t 0 : Int)))
      else if validTail r then (f.read (String.ofList (minus ++ t ++ r))).map .float else none := by
  have htw := takeWhile_all ((digits_iff _).1 ht.2.1) r hr
  have hok := intPart_ok ht
  unfold numVal
  rcases hm with rfl | rfl
  · simp only [List.nil_append, intPart_head ht r, Bool.false_eq_true, if_false, htw.1, htw.2, hok, ← natOf_eq]
    simp
  · simp only [List.cons_append, List.nil_append, List.head?_cons, beq_self_eq_true, if_true, List.tail_cons, htw.1,
      htw.2, hok, ← natOf_eq, Bool.false_eq_true, if_false]
    simp

theorem numVal_iff (tok : List Char) (j : Json) : numVal f tok = some j ↔ NumText f.read tok j := by
  constructor
  · intro h
    -- cut the text
    have hcut : ∃ minus t r, tok = minus ++ t ++ r ∧ (minus = [] ∨ minus = ['-']) ∧ IntPart t ∧
        (∀ c, r.head? = some c → c.isDigit = false) := by
      refine ⟨if tok.head? == some '-' then ['-'] else [],
        (if tok.head? == some '-' then tok.tail else tok).takeWhile Char.isDigit,
        (if tok.head? == some '-' then tok.tail else tok).dropWhile Char.isDigit, ?_, ?_, ?_, ?_⟩
      · rw [List.append_assoc, List.takeWhile_append_dropWhile]
        split
        · rename_i hh
          cases tok with
          | nil => simp at hh
          | cons c l => simp at hh; simp [hh]
        · rfl
      · split <;> simp
      · unfold numVal at h
        simp only at h
        generalize (if tok.head? == some '-' then tok.tail else tok) = u at h ⊢
        by_cases hn : ((u.takeWhile Char.isDigit).isEmpty || ((u.takeWhile Char.isDigit).head? == some '0' &&
            (u.takeWhile Char.isDigit).length != 1)) = true
        · rw [if_pos hn] at h; exact absurd h (by simp)
        · clear h
          simp only [Bool.or_eq_true, List.isEmpty_iff, Bool.and_eq_true, beq_iff_eq, bne_iff_ne, ne_eq, not_or,
            not_and, Classical.not_not] at hn
          refine ⟨by simpa using hn.1, (digits_iff _).2 fun c hc => List.all_eq_true.1 List.all_takeWhile c hc, ?_⟩
          intro h0
          have := hn.2 (by simpa using h0)
          obtain ⟨x, hx⟩ := List.length_eq_one_iff.1 (by simpa using this)
          have hx' := hx
          rw [hx'] at h0
          simp only [List.head?_cons, Option.some.injEq] at h0
          rw [hx', h0]
      · intro c hc
        have := List.head?_dropWhile_not Char.isDigit
          (if tok.head? == some '-' then tok.tail else tok)
        rw [hc] at this
        simpa using this
    obtain ⟨minus, t, r, rfl, hm, ht, hr⟩ := hcut
    rw [numVal_cut hm ht hr] at h
    split at h
    · rename_i hc
      obtain ⟨rfl, rfl, hlt⟩ := hc
      simp only [Option.some.injEq] at h
      subst h
      simpa using NumText.nat (readFloat := f.read) ht hlt
    split at h
    · rename_i hc
      obtain ⟨rfl, rfl, h0, h1⟩ := hc
      simp only [Option.some.injEq] at h
      subst h
      simpa using NumText.neg (readFloat := f.read) ht h0 h1
    split at h
    · rename_i n1 n2 hv
      obtain ⟨frac, exp, rfl, hf, he⟩ := (validTail_iff _).1 hv
      obtain ⟨x, hx, rfl⟩ := Option.map_eq_some_iff.1 h
      rw [← List.append_assoc] at hx ⊢
      refine NumText.float hm ht hf he ?_ hx
      rintro rfl rfl
      simp only [List.append_nil, true_and, not_and, Nat.not_lt, Nat.not_le] at n1 n2
      refine ⟨n1, fun e => ?_⟩
      have := n2 e
      omega
    · exact absurd h (by simp)
  · rintro (⟨ht, hlt⟩ | ⟨ht, h0, h1⟩ | ⟨hm, ht, hf, he, hc, hx⟩)
    · have := numVal_cut (f := f) (.inl rfl) ht (r := []) (by simp)
      simp only [List.nil_append, List.append_nil] at this
      rw [this, if_pos ⟨trivial, trivial, hlt⟩]
    · have := numVal_cut (f := f) (.inr rfl) ht (r := []) (by simp)
      simp only [List.cons_append, List.nil_append, List.append_nil] at this
      rw [this, if_neg (by simp), if_pos ⟨trivial, trivial, h0, h1⟩]
    · rename_i minus t frac exp x
      rw [List.append_assoc (minus ++ t), numVal_cut hm ht (tail_head hf he), if_neg, if_neg,
        if_pos ((validTail_iff _).2 ⟨frac, exp, rfl, hf, he⟩), ← List.append_assoc, hx]
      · rfl
      · rintro ⟨h1, h2, h3, h4⟩
        obtain ⟨rfl, rfl⟩ := List.append_eq_nil_iff.1 h1
        have := (hc rfl rfl).2 h2
        omega
      · rintro ⟨h1, h2, h3⟩
        obtain ⟨rfl, rfl⟩ := List.append_eq_nil_iff.1 h1
        have := (hc rfl rfl).1 h2
        omega

/-- Every character of a number is one a number can contain; the first is `-` or a digit. -/
theorem numText_chars {tok : List Char} {j : Json} (h : NumText f.read tok j) :
    ∃ c l, tok = c :: l ∧ (c = '-' ∨ c.isDigit = true) ∧ ∀ x ∈ l, isNumChar x = true := by
  have dig : ∀ {t : List Char}, Digits t → ∀ c ∈ t, isNumChar c = true := fun h c hc =>
    digit_numChar ((digits_iff _).1 h c hc)
  have int : ∀ {t r : List Char}, IntPart t → (∀ c ∈ r, isNumChar c = true) →
      ∃ c l, t ++ r = c :: l ∧ (c = '-' ∨ c.isDigit = true) ∧ ∀ x ∈ l, isNumChar x = true := by
    intro t r ht hr
    obtain ⟨c, l, rfl⟩ := List.exists_cons_of_ne_nil ht.1
    refine ⟨c, l ++ r, rfl, .inr ((digits_iff _).1 ht.2.1 c (.head _)), fun x hx => ?_⟩
    rcases List.mem_append.1 hx with hx | hx
    · exact dig ht.2.1 x (.tail _ hx)
    · exact hr x hx
  have sgn : ∀ {t r : List Char}, IntPart t → (∀ c ∈ r, isNumChar c = true) →
      ∀ x ∈ t ++ r, isNumChar x = true := by
    intro t r ht hr x hx
    rcases List.mem_append.1 hx with hx | hx
    · exact dig ht.2.1 x hx
    · exact hr x hx
  rcases h with ⟨ht, _⟩ | ⟨ht, _, _⟩ | @⟨minus, t, frac, exp, x, hm, ht, hf, he, _, _⟩
  · simpa using int ht (r := []) (by simp)
  · exact ⟨'-', _, rfl, .inl rfl, by simpa using sgn ht (r := []) (by simp)⟩
  · have hr : ∀ c ∈ frac ++ exp, isNumChar c = true := by
      intro c hc
      rcases List.mem_append.1 hc with hc | hc
      · rcases hf with rfl | ⟨_, hd⟩
        · simp at hc
        · rcases List.mem_cons.1 hc with rfl | hc
          · decide
          · exact dig hd c hc
      · rcases he with rfl | ⟨he, hs, _, hd⟩
        · simp at hc
        · rcases List.mem_cons.1 hc with rfl | hc
          · rcases he with rfl | rfl <;> decide
          · rcases List.mem_append.1 hc with hc | hc
            · rcases hs with rfl | rfl | rfl
              · simp at hc
              · simp at hc; subst hc; decide
              · simp at hc; subst hc; decide
            · exact dig hd c hc
    rcases hm with rfl | rfl
    · simpa using int ht hr
    · exact ⟨'-', t ++ (frac ++ exp), by simp, .inl rfl, sgn ht hr⟩

/-! ## Strings -/

theorem hexVal_iff (c : Char) (d : Nat) : hexVal c = some d ↔ HexDigit c d := by
  constructor
  · intro h
    have ofN : ∀ n, c.toNat = n → c = Char.ofNat n := by rintro _ rfl; exact (Char.ofNat_toNat c).symm
    unfold hexVal at h
    split at h
    · rename_i hd
      rw [isDigit_iff] at hd
      have h1 : 48 ≤ c.toNat := hd.1
      have h2 : c.toNat ≤ 57 := hd.2
      simp only [Option.some.injEq] at h
      subst h
      have := HexDigit.dec (c.toNat - 48) (by omega)
      rwa [show 48 + (c.toNat - 48) = c.toNat by omega, Char.ofNat_toNat] at this
    split at h
    · rename_i hd
      have h1 : 97 ≤ c.toNat := hd.1
      have h2 : c.toNat ≤ 102 := hd.2
      simp only [Option.some.injEq] at h
      subst h
      have := HexDigit.lower (c.toNat - 97) (by omega)
      rwa [show 97 + (c.toNat - 97) = c.toNat by omega, Char.ofNat_toNat,
        show 10 + (c.toNat - 97) = c.toNat - 87 by omega] at this
    split at h
    · rename_i hd
      have h1 : 65 ≤ c.toNat := hd.1
      have h2 : c.toNat ≤ 70 := hd.2
      simp only [Option.some.injEq] at h
      subst h
      have := HexDigit.upper (c.toNat - 65) (by omega)
      rwa [show 65 + (c.toNat - 65) = c.toNat by omega, Char.ofNat_toNat,
        show 10 + (c.toNat - 65) = c.toNat - 55 by omega] at this
    · exact absurd h (by simp)
  · intro h
    cases h with
    | dec d hd =>
      have : ∀ d : Fin 10, hexVal (Char.ofNat (48 + d.1)) = some d.1 := by decide
      exact this ⟨_, hd⟩
    | lower d hd =>
      have : ∀ d : Fin 6, hexVal (Char.ofNat (97 + d.1)) = some (10 + d.1) := by decide
      exact this ⟨_, hd⟩
    | upper d hd =>
      have : ∀ d : Fin 6, hexVal (Char.ofNat (65 + d.1)) = some (10 + d.1) := by decide
      exact this ⟨_, hd⟩

/-- Four hexadecimal digits. -/
theorem read_hex4 (st : List Frame) (k : Bool) (acc : List Char) (high : Option Nat) {t : List Char} {n : Nat}
    (h : CodeUnit t n) (r : List Char) :
    ∃ u, t = '\\' :: 'u' :: u ∧
      readFrom f ⟨st, .hex k acc high []⟩ (u ++ r) = (endHex st k acc high n).bind fun p => readFrom f p r := by
  obtain ⟨h1, h2, h3, h4⟩ := h
  rename_i c₁ c₂ c₃ c₄ d₁ d₂ d₃ d₄
  refine ⟨[c₁, c₂, c₃, c₄], rfl, ?_⟩
  rw [← hexVal_iff] at h1 h2 h3 h4
  simp only [List.cons_append, List.nil_append, read_cons, stepChar, h1, h2, h3, h4, Option.bind_some]
  simp only [List.length_nil, List.length_cons, List.foldl_cons, List.foldl_nil]
  simp
  congr 2
  omega

theorem read_char (st : List Frame) (k : Bool) (acc : List Char) {t : List Char} {c : Char} (h : CharText t c)
    (r : List Char) : readFrom f ⟨st, .str k acc⟩ (t ++ r) = readFrom f ⟨st, .str k (acc ++ [c])⟩ r := by
  cases h with
  | plain _ h1 h2 h3 => simp [read_cons, stepChar, h2, h3, Nat.not_lt.2 h1]
  | quote | backslash | slash | backspace | formFeed | lineFeed | «return» | tab =>
    simp [read_cons, stepChar]
  | unit h hn =>
    obtain ⟨u, rfl, hr⟩ := read_hex4 (f := f) st k acc none h r
    simp only [List.cons_append, read_cons]
    simp only [stepChar]
    simp only [show ('\\' : Char) ≠ '"' by decide, if_false, if_true, Option.bind_some,
      show ¬ ('u' = '"' ∨ 'u' = '\\' ∨ 'u' = '/') by decide, show ('u' : Char) ≠ 'b' by decide,
      show ('u' : Char) ≠ 't' by decide, show ('u' : Char) ≠ 'n' by decide, show ('u' : Char) ≠ 'f' by decide,
      show ('u' : Char) ≠ 'r' by decide]
    rw [hr]
    unfold endHex
    simp only
    rw [if_neg (by omega), if_neg (by omega)]
    rfl
  | pair h1 h2 a b c d =>
    rename_i t₁ t₂ h l
    obtain ⟨u₂, rfl, hr₂⟩ := read_hex4 (f := f) st k acc (some h) h2 r
    obtain ⟨u, rfl, hr⟩ := read_hex4 (f := f) st k acc none h1 ('\\' :: 'u' :: u₂ ++ r)
    simp only [List.append_assoc, List.cons_append, read_cons]
    simp only [stepChar]
    simp only [show ('\\' : Char) ≠ '"' by decide, if_false, if_true, Option.bind_some,
      show ¬ ('u' = '"' ∨ 'u' = '\\' ∨ 'u' = '/') by decide, show ('u' : Char) ≠ 'b' by decide,
      show ('u' : Char) ≠ 't' by decide, show ('u' : Char) ≠ 'n' by decide, show ('u' : Char) ≠ 'f' by decide,
      show ('u' : Char) ≠ 'r' by decide]
    simp only [List.cons_append] at hr
    rw [hr]
    unfold endHex
    simp only
    rw [if_pos ⟨a, b⟩]
    simp only [Option.bind_some, read_cons, stepChar, Bool.false_eq_true, if_false, if_true]
    rw [hr₂]
    unfold endHex
    simp only
    rw [if_pos ⟨c, d⟩]
    rfl

theorem read_charsText (st : List Frame) (k : Bool) (acc : List Char) {t cs : List Char} (h : CharsText t cs)
    (r : List Char) : readFrom f ⟨st, .str k acc⟩ (t ++ r) = readFrom f ⟨st, .str k (acc ++ cs)⟩ r := by
  induction h generalizing acc with
  | nil => simp
  | cons hc _ ih => rw [List.append_assoc, read_char st k acc hc, ih]; simp

theorem read_strText (st : List Frame) (b : Bool) {t : List Char} {s : String} (h : StrText t s) (r : List Char) :
    readFrom f ⟨st, .value b⟩ (t ++ r) = readFrom f ⟨st, .after (.str s)⟩ r := by
  obtain ⟨h⟩ := h
  simp only [List.cons_append, read_cons, List.append_assoc, List.nil_append]
  have : stepChar f ⟨st, .value b⟩ '"' = some ⟨st, .str false []⟩ := rfl
  rw [this, Option.bind_some, read_charsText _ _ _ h]
  simp [read_cons, stepChar, endStr]

theorem read_keyText (st : List Frame) (b : Bool) (es : List (String × Json)) (k0 : String) {t : List Char} {s : String}
    (h : StrText t s) (r : List Char) :
    readFrom f ⟨.obj es k0 :: st, .key b⟩ (t ++ r) = readFrom f ⟨.obj es s :: st, .colon⟩ r := by
  obtain ⟨h⟩ := h
  simp only [List.cons_append, read_cons, List.append_assoc, List.nil_append]
  have : stepChar f ⟨.obj es k0 :: st, .key b⟩ '"' = some ⟨.obj es k0 :: st, .str true []⟩ := rfl
  rw [this, Option.bind_some, read_charsText _ _ _ h]
  simp [read_cons, stepChar, endStr]

/-! ## Every JSON text is read -/

theorem ws_iff (c : Char) : isWs c = true ↔ c = ' ' ∨ c = '\n' ∨ c = '\t' ∨ c = '\r' := by
  simp [isWs, or_assoc]

theorem ws_cons {c : Char} {w : List Char} (h : JsonWs (c :: w)) : isWs c = true ∧ JsonWs w :=
  ⟨(ws_iff c).2 (h c (.head _)), fun x hx => h x (.tail _ hx)⟩

/-- White space is skipped. -/
theorem skip_ws {p : PS} (hp : ∀ c, isWs c = true → stepChar f p c = some p) {w : List Char} (hw : JsonWs w)
    (r : List Char) : readFrom f p (w ++ r) = readFrom f p r := by
  induction w with
  | nil => rfl
  | cons c w ih =>
    obtain ⟨h1, h2⟩ := ws_cons hw
    rw [List.cons_append, read_cons, hp c h1, Option.bind_some, ih h2]

theorem skip_value {st : List Frame} {b : Bool} : ∀ c, isWs c = true → stepChar f ⟨st, .value b⟩ c = some ⟨st, .value b⟩ := by
  intro c h; simp [stepChar, stepValue, h]
theorem skip_key {st : List Frame} {b : Bool} : ∀ c, isWs c = true → stepChar f ⟨st, .key b⟩ c = some ⟨st, .key b⟩ := by
  intro c h; simp [stepChar, h]
theorem skip_colon {st : List Frame} : ∀ c, isWs c = true → stepChar f ⟨st, .colon⟩ c = some ⟨st, .colon⟩ := by
  intro c h; simp [stepChar, h]
theorem skip_after {st : List Frame} {j : Json} :
    ∀ c, isWs c = true → stepChar f ⟨st, .after j⟩ c = some ⟨st, .after j⟩ := by
  intro c h; simp [stepChar, stepAfter, h]

/-- What follows is not part of a number. -/
def Stops (r : List Char) : Prop := ∀ c, r.head? = some c → isNumChar c = false

theorem stops_ws {w r : List Char} (hw : JsonWs w) (hr : Stops r) : Stops (w ++ r) := by
  cases w with
  | nil => exact hr
  | cons c w =>
    intro x hx
    simp only [List.cons_append, List.head?_cons, Option.some.injEq] at hx
    subst hx
    rcases hw c (.head _) with rfl | rfl | rfl | rfl <;> decide

theorem stops_cons {c : Char} {r : List Char} (h : isNumChar c = false) : Stops (c :: r) := by
  intro x hx
  simp only [List.head?_cons, Option.some.injEq] at hx
  subst hx; exact h

theorem stop_num (st : List Frame) (tok : List Char) (j : Json) (hj : numVal f tok = some j) (r : List Char)
    (hr : Stops r) : readFrom f ⟨st, .num tok⟩ r = readFrom f ⟨st, .after j⟩ r := by
  cases r with
  | nil => cases st <;> simp [readFrom, finish, hj]
  | cons c r => simp [read_cons, stepChar, hr c rfl, hj]

theorem begin_num (st : List Frame) (b : Bool) (c : Char) (hc : c = '-' ∨ c.isDigit = true) :
    stepChar f ⟨st, .value b⟩ c = some ⟨st, .num [c]⟩ := by
  have ne : ∀ x : Char, x ≠ '-' → x.isDigit = false → c ≠ x := by
    intro x h1 h2 h
    subst h
    rcases hc with h | h
    · exact h1 h
    · rw [h2] at h; simp at h
  have hws : isWs c = false := by
    simp [isWs, ne ' ' (by decide) (by decide), ne '\n' (by decide) (by decide), ne '\t' (by decide) (by decide),
      ne '\r' (by decide) (by decide)]
  simp only [stepChar, stepValue, hws, ne 'n' (by decide) (by decide), ne 't' (by decide) (by decide),
    ne 'f' (by decide) (by decide), ne '"' (by decide) (by decide), ne '[' (by decide) (by decide),
    ne '{' (by decide) (by decide), Bool.false_eq_true, if_false, hc, if_true]

theorem read_numText (st : List Frame) (b : Bool) {t : List Char} {j : Json} (h : NumText f.read t j) (r : List Char)
    (hr : Stops r) : readFrom f ⟨st, .value b⟩ (t ++ r) = readFrom f ⟨st, .after j⟩ r := by
  have hv := (numVal_iff _ _).2 h
  obtain ⟨c, l, rfl, hc, hl⟩ := numText_chars h
  rw [List.cons_append, read_cons, begin_num st b c hc, Option.bind_some, read_num_go st l [c] hl r]
  exact stop_num st _ j (by simpa using hv) r hr

mutual
theorem read_valueText {v : List Char} {j : Json} (h : ValueText f.read v j) (st : List Frame) (b : Bool)
    (hd : st.length + depth j ≤ 127) (r : List Char) (hr : Stops r) :
    readFrom f ⟨st, .value b⟩ (v ++ r) = readFrom f ⟨st, .after j⟩ r := by
  match h with
  | .null => simp [read_cons, stepChar, stepValue, isWs]
  | .true => simp [read_cons, stepChar, stepValue, isWs]
  | .false => simp [read_cons, stepChar, stepValue, isWs]
  | .num h => exact read_numText st b h r hr
  | .str h => exact read_strText st b h r
  | .emptyArr hw =>
    have : st.length < 127 := by simp [depth, depthAll] at hd; omega
    have hs : stepChar f ⟨st, .value b⟩ '[' = some ⟨.arr [] :: st, .value Bool.true⟩ := by
      simp [stepChar, stepValue, isWs, this]
    rw [List.cons_append, read_cons, hs, Option.bind_some, List.append_assoc, skip_ws skip_value hw]
    simp [read_cons, stepChar, stepValue, isWs]
  | .arr h =>
    simp only [depth] at hd
    have hs : stepChar f ⟨st, .value b⟩ '[' = some ⟨.arr [] :: st, .value Bool.true⟩ := by
      simp [stepChar, stepValue, isWs, show st.length < 127 by omega]
    rw [List.cons_append, read_cons, hs, Option.bind_some, List.append_assoc]
    exact read_itemsText h st [] Bool.true (by omega) r
  | .emptyObj hw =>
    have : st.length < 127 := by simp [depth, depthFields] at hd; omega
    have hs : stepChar f ⟨st, .value b⟩ '{' = some ⟨.obj [] "" :: st, .key Bool.true⟩ := by
      simp [stepChar, stepValue, isWs, this]
    rw [List.cons_append, read_cons, hs, Option.bind_some, List.append_assoc, skip_ws skip_key hw]
    simp [read_cons, stepChar, isWs]
  | .obj h =>
    simp only [depth] at hd
    have hs : stepChar f ⟨st, .value b⟩ '{' = some ⟨.obj [] "" :: st, .key Bool.true⟩ := by
      simp [stepChar, stepValue, isWs, show st.length < 127 by omega]
    rw [List.cons_append, read_cons, hs, Option.bind_some, List.append_assoc]
    exact read_membersText h st [] "" Bool.true (by omega) r
theorem read_itemsText {t : List Char} {js : List Json} (h : ItemsText f.read t js) (st : List Frame)
    (acc : List Json) (b : Bool) (hd : st.length + (1 + depthAll js) ≤ 127) (r : List Char) :
    readFrom f ⟨.arr acc :: st, .value b⟩ (t ++ ([']'] ++ r)) = readFrom f ⟨st, .after (.arr (acc ++ js))⟩ r := by
  match h with
  | .one ha hv hb =>
    simp only [depthAll] at hd
    simp only [List.append_assoc, List.cons_append, List.nil_append]
    rw [skip_ws skip_value ha,
      read_valueText hv _ _ (by simp only [List.length_cons]; omega) _ (stops_ws hb (stops_cons (by decide))),
      skip_ws skip_after hb]
    simp [read_cons, stepChar, stepAfter, isWs]
  | @ItemsText.more _ _ _ _ _ j _ ha hv hb ht =>
    simp only [depthAll] at hd
    simp only [List.append_assoc, List.cons_append]
    rw [skip_ws skip_value ha,
      read_valueText hv _ _ (by simp only [List.length_cons]; omega) _ (stops_ws hb (stops_cons (by decide))),
      skip_ws skip_after hb, read_cons]
    simp only [stepChar, stepAfter, isWs]
    simp only [show (',' : Char) ≠ ' ' by decide, beq_iff_eq, Bool.or_eq_true, show (',' : Char) ≠ '\n' by decide,
      show (',' : Char) ≠ '\t' by decide, show (',' : Char) ≠ '\r' by decide, or_self, if_false, if_true,
      Option.bind_some]
    have := read_itemsText ht st (acc ++ [j]) Bool.false (by omega) r
    simp only [List.cons_append, List.nil_append, List.append_assoc] at this
    exact this
theorem read_membersText {t : List Char} {es : List (String × Json)} (h : MembersText f.read t es) (st : List Frame)
    (acc : List (String × Json)) (k0 : String) (b : Bool) (hd : st.length + (1 + depthFields es) ≤ 127)
    (r : List Char) :
    readFrom f ⟨.obj acc k0 :: st, .key b⟩ (t ++ (['}'] ++ r)) = readFrom f ⟨st, .after (.obj (acc ++ es))⟩ r := by
  match h with
  | .one ha hk hb hc hv hd' =>
    simp only [depthFields] at hd
    simp only [List.append_assoc, List.cons_append]
    rw [skip_ws skip_key ha, read_keyText _ _ _ _ hk, skip_ws skip_colon hb, read_cons]
    have : ∀ key, stepChar f ⟨.obj acc key :: st, .colon⟩ ':' = some ⟨.obj acc key :: st, .value Bool.false⟩ := fun _ => rfl
    rw [this, Option.bind_some, skip_ws skip_value hc,
      read_valueText hv _ _ (by simp only [List.length_cons]; omega) _ (stops_ws hd' (stops_cons (by decide))),
      skip_ws skip_after hd']
    simp [read_cons, stepChar, stepAfter, isWs]
  | @MembersText.more _ _ _ _ _ _ _ _ key j _ ha hk hb hc hv hd' ht =>
    simp only [depthFields] at hd
    simp only [List.append_assoc, List.cons_append]
    rw [skip_ws skip_key ha, read_keyText _ _ _ _ hk, skip_ws skip_colon hb, read_cons]
    have : ∀ key, stepChar f ⟨.obj acc key :: st, .colon⟩ ':' = some ⟨.obj acc key :: st, .value Bool.false⟩ := fun _ => rfl
    rw [this, Option.bind_some, skip_ws skip_value hc,
      read_valueText hv _ _ (by simp only [List.length_cons]; omega) _ (stops_ws hd' (stops_cons (by decide))),
      skip_ws skip_after hd', read_cons]
    simp only [stepChar, stepAfter, isWs]
    simp only [show (',' : Char) ≠ ' ' by decide, beq_iff_eq, Bool.or_eq_true, show (',' : Char) ≠ '\n' by decide,
      show (',' : Char) ≠ '\t' by decide, show (',' : Char) ≠ '\r' by decide, or_self, if_false, if_true,
      Option.bind_some]
    have := read_membersText ht st (acc ++ [(key, j)]) key Bool.false (by omega) r
    simp only [List.cons_append, List.nil_append, List.append_assoc] at this
    exact this
end

/-- Every JSON text that is not nested too deeply is read, as the value it stands for. -/
theorem parse_complete {text : List Char} {j : Json} (h : JsonText f.read text j) (hd : depth j ≤ 127) :
    parseJson f text = some j := by
  obtain ⟨a, v, b, rfl, ha, hv, hb⟩ := h
  unfold parseJson
  rw [List.append_assoc, skip_ws skip_value ha,
    read_valueText hv _ _ (by simpa using hd) _ (by simpa using stops_ws hb (r := []) (by simp [Stops]))]
  have := skip_ws (f := f) (skip_after (st := []) (j := j)) hb []
  rw [List.append_nil] at this
  rw [this]
  rfl

end AstroRun.Wire
