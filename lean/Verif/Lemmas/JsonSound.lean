import Verif.Lemmas.JsonGrammar

/-! # The reader accepts only JSON texts -/

namespace AstroRun.Wire
open AstroRun.Spec

variable {f : FloatText}

/-- Items, each with the comma after it. -/
inductive ItemsBefore (rf : String → Option String) : List Char → List Json → Prop
  | nil : ItemsBefore rf [] []
  | snoc {e a v b : List Char} {js : List Json} {j : Json} : ItemsBefore rf e js → JsonWs a → ValueText rf v j →
      JsonWs b → ItemsBefore rf (e ++ (a ++ v ++ b ++ [','])) (js ++ [j])

/-- Members, each with the comma after it. -/
inductive MembersBefore (rf : String → Option String) : List Char → List (String × Json) → Prop
  | nil : MembersBefore rf [] []
  | snoc {e a k b c v d : List Char} {es : List (String × Json)} {key : String} {j : Json} : MembersBefore rf e es →
      JsonWs a → StrText k key → JsonWs b → JsonWs c → ValueText rf v j → JsonWs d →
      MembersBefore rf (e ++ (a ++ k ++ b ++ ':' :: (c ++ v ++ d) ++ [','])) (es ++ [(key, j)])

theorem ItemsBefore.then {rf : String → Option String} {e t : List Char} {js js' : List Json}
    (h : ItemsBefore rf e js) : ItemsText rf t js' → ItemsText rf (e ++ t) (js ++ js') := by
  induction h generalizing t js' with
  | nil => exact id
  | snoc _ ha hv hb ih =>
    intro ht
    have := ih (.more ha hv hb ht)
    simpa using this

theorem MembersBefore.then {rf : String → Option String} {e t : List Char} {es es' : List (String × Json)}
    (h : MembersBefore rf e es) : MembersText rf t es' → MembersText rf (e ++ t) (es ++ es') := by
  induction h generalizing t es' with
  | nil => exact id
  | snoc _ ha hk hb hc hv hd ih =>
    intro ht
    have := ih (.more ha hk hb hc hv hd ht)
    simpa using this

theorem ItemsBefore.nil_of {rf : String → Option String} {e : List Char} {js : List Json} (h : ItemsBefore rf e js)
    (hj : js = []) : e = [] := by
  cases h with
  | nil => rfl
  | snoc => simp at hj

theorem MembersBefore.nil_of {rf : String → Option String} {e : List Char} {es : List (String × Json)}
    (h : MembersBefore rf e es) (hj : es = []) : e = [] := by
  cases h with
  | nil => rfl
  | snoc => simp at hj

theorem depthAll_snoc (js : List Json) (j : Json) : depthAll (js ++ [j]) = max (depthAll js) (depth j) := by
  induction js with
  | nil => simp [depthAll]
  | cons i js ih => simp only [List.cons_append, depthAll, ih]; omega

theorem depthFields_snoc (es : List (String × Json)) (k : String) (j : Json) :
    depthFields (es ++ [(k, j)]) = max (depthFields es) (depth j) := by
  induction es with
  | nil => simp [depthFields]
  | cons i es ih => obtain ⟨k', i⟩ := i; simp only [List.cons_append, depthFields, ih]; omega

/-- The text read so far ends where a value is due, inside these arrays and objects. -/
inductive Open (rf : String → Option String) : List Frame → List Char → Prop
  | nil : Open rf [] []
  | arr {st : List Frame} {t a e : List Char} {js : List Json} : Open rf st t → JsonWs a → ItemsBefore rf e js →
      st.length + 1 + depthAll js ≤ 127 → Open rf (.arr js :: st) (t ++ a ++ '[' :: e)
  | obj {st : List Frame} {t a e b k c : List Char} {es : List (String × Json)} {key : String} : Open rf st t →
      JsonWs a → MembersBefore rf e es → JsonWs b → StrText k key → JsonWs c →
      st.length + 1 + depthFields es ≤ 127 →
      Open rf (.obj es key :: st) (t ++ a ++ '{' :: (e ++ b ++ k ++ c ++ [':']))

/-- A value is due, perhaps after white space. -/
def ValueDue (rf : String → Option String) (st : List Frame) (t : List Char) : Prop :=
  ∃ t₀ a, t = t₀ ++ a ∧ Open rf st t₀ ∧ JsonWs a

/-- A key is due, perhaps after white space. -/
def KeyDue (rf : String → Option String) (st : List Frame) (t : List Char) : Prop :=
  ∃ es key st' t₀ a e b, st = .obj es key :: st' ∧ t = t₀ ++ a ++ '{' :: (e ++ b) ∧ Open rf st' t₀ ∧ JsonWs a ∧
    MembersBefore rf e es ∧ JsonWs b ∧ st'.length + 1 + depthFields es ≤ 127

/-- A string is due. -/
def StrDue (rf : String → Option String) (st : List Frame) (isKey : Bool) (t : List Char) : Prop :=
  if isKey then KeyDue rf st t else ValueDue rf st t

/-- Hexadecimal digits. -/
inductive HexDigits : List Char → List Nat → Prop
  | nil : HexDigits [] []
  | snoc {h : List Char} {ds : List Nat} {c : Char} {d : Nat} : HexDigits h ds → HexDigit c d →
      HexDigits (h ++ [c]) (ds ++ [d])

/-- What the text read so far looks like. -/
def ReadSoFar (rf : String → Option String) (p : PS) (t : List Char) : Prop :=
  match p.mode with
  | .value closable => ValueDue rf p.stack t ∧ (closable = true → ∃ st, p.stack = .arr [] :: st)
  | .key closable => KeyDue rf p.stack t ∧ (closable = true → ∃ k st, p.stack = .obj [] k :: st)
  | .colon => ∃ es key st' t₀ a e b k c, p.stack = .obj es key :: st' ∧ t = t₀ ++ a ++ '{' :: (e ++ b ++ k ++ c) ∧
      Open rf st' t₀ ∧ JsonWs a ∧ MembersBefore rf e es ∧ JsonWs b ∧ StrText k key ∧ JsonWs c ∧
      st'.length + 1 + depthFields es ≤ 127
  | .after j => ∃ t₀ v b, t = t₀ ++ v ++ b ∧ ValueDue rf p.stack t₀ ∧ ValueText rf v j ∧ JsonWs b ∧
      p.stack.length + depth j ≤ 127
  | .lit rest j => ∃ t₀ x, t = t₀ ++ x ∧ ValueDue rf p.stack t₀ ∧ ValueText rf (x ++ rest) j ∧
      p.stack.length + depth j ≤ 127
  | .num tok => ∃ t₀, t = t₀ ++ tok ∧ ValueDue rf p.stack t₀
  | .str isKey acc => ∃ t₀ s, t = t₀ ++ '"' :: s ∧ StrDue rf p.stack isKey t₀ ∧ CharsText s acc
  | .esc isKey acc => ∃ t₀ s, t = t₀ ++ '"' :: (s ++ ['\\']) ∧ StrDue rf p.stack isKey t₀ ∧ CharsText s acc
  | .hex isKey acc none ds => ∃ t₀ s h, t = t₀ ++ '"' :: (s ++ '\\' :: 'u' :: h) ∧ StrDue rf p.stack isKey t₀ ∧
      CharsText s acc ∧ HexDigits h ds ∧ ds.length ≤ 3
  | .hex isKey acc (some n) ds => ∃ t₀ s u h, t = t₀ ++ '"' :: (s ++ u ++ '\\' :: 'u' :: h) ∧
      StrDue rf p.stack isKey t₀ ∧ CharsText s acc ∧ CodeUnit u n ∧ 0xD800 ≤ n ∧ n ≤ 0xDBFF ∧ HexDigits h ds ∧
      ds.length ≤ 3
  | .pair isKey acc n slash => ∃ t₀ s u, t = t₀ ++ '"' :: (s ++ u ++ if slash then ['\\'] else []) ∧
      StrDue rf p.stack isKey t₀ ∧ CharsText s acc ∧ CodeUnit u n ∧ 0xD800 ≤ n ∧ n ≤ 0xDBFF

theorem _root_.AstroRun.Spec.CharsText.snoc {t cs u : List Char} {c : Char} (h : CharsText t cs) (hc : CharText u c) :
    CharsText (t ++ u) (cs ++ [c]) := by
  induction h with
  | nil => simpa using CharsText.cons hc .nil
  | cons h1 _ ih => simpa using CharsText.cons h1 ih

theorem ws_snoc {a : List Char} {c : Char} (h : JsonWs a) (hc : isWs c = true) : JsonWs (a ++ [c]) := by
  intro x hx
  rcases List.mem_append.1 hx with hx | hx
  · exact h x hx
  · rcases List.mem_singleton.1 hx with rfl
    exact (ws_iff _).1 hc

theorem hexDigits_nil {h : List Char} {ds : List Nat} (hh : HexDigits h ds) (hd : ds = []) : h = [] := by
  cases hh with
  | nil => rfl
  | snoc => simp at hd

theorem hexDigits_cons {h : List Char} {ds ds' : List Nat} {d : Nat} (hh : HexDigits h ds) (hd : ds = ds' ++ [d]) :
    ∃ h' c, h = h' ++ [c] ∧ HexDigits h' ds' ∧ HexDigit c d := by
  cases hh with
  | nil => simp at hd
  | snoc h1 h2 =>
    obtain ⟨rfl, h3⟩ := List.append_inj' hd rfl
    simp only [List.cons.injEq, and_true] at h3
    subst h3
    exact ⟨_, _, rfl, h1, h2⟩

/-- Four digits make a code unit. -/
theorem hexDigits_unit {h : List Char} {ds : List Nat} (hh : HexDigits h ds) (hl : ds.length = 4) :
    CodeUnit ('\\' :: 'u' :: h) (ds.foldl (fun n d => 16 * n + d) 0) := by
  obtain ⟨d₁, d₂, d₃, d₄, rfl⟩ : ∃ d₁ d₂ d₃ d₄, ds = [d₁, d₂, d₃, d₄] := by
    match ds, hl with
    | [a, b, c, d], _ => exact ⟨a, b, c, d, rfl⟩
  obtain ⟨h3, c₄, rfl, h3', x₄⟩ := hexDigits_cons hh (ds' := [d₁, d₂, d₃]) rfl
  obtain ⟨h2, c₃, rfl, h2', x₃⟩ := hexDigits_cons h3' (ds' := [d₁, d₂]) rfl
  obtain ⟨h1, c₂, rfl, h1', x₂⟩ := hexDigits_cons h2' (ds' := [d₁]) rfl
  obtain ⟨h0, c₁, rfl, h0', x₁⟩ := hexDigits_cons h1' (ds' := []) rfl
  rw [hexDigits_nil h0' rfl]
  have := CodeUnit.mk x₁ x₂ x₃ x₄
  simp only [List.foldl_cons, List.foldl_nil]
  rwa [show 16 * (16 * (16 * (16 * 0 + d₁) + d₂) + d₃) + d₄ = 4096 * d₁ + 256 * d₂ + 16 * d₃ + d₄ by omega]

/-- A complete value, and the character after it. -/
theorem sound_after {st : List Frame} {j : Json} {t t₀ v b : List Char} {c : Char} {p : PS}
    (ht : t = t₀ ++ v ++ b) (h0 : ValueDue f.read st t₀) (hv : ValueText f.read v j) (hb : JsonWs b)
    (hd : st.length + depth j ≤ 127) (h : stepAfter st j c = some p) : ReadSoFar f.read p (t ++ [c]) := by
  unfold stepAfter at h
  split at h
  · rename_i hw
    simp only [Option.some.injEq] at h
    subst h
    exact ⟨t₀, v, b ++ [c], by simp [ht], h0, hv, ws_snoc hb hw, hd⟩
  obtain ⟨t₁, a, rfl, ho, ha⟩ := h0
  split at h
  · exact absurd h (by simp)
  · rename_i js st
    simp only [List.length_cons] at hd
    cases ho with
    | arr ho' ha' he hde =>
      rename_i t₂ a₂ e
      split at h
      · rename_i hc
        simp only [Option.some.injEq] at h
        subst h hc
        refine ⟨⟨t₂ ++ a₂ ++ '[' :: (e ++ (a ++ v ++ b ++ [','])), [], by simp [ht],
          .arr ho' ha' (.snoc he ha hv hb) ?_, by simp [JsonWs]⟩, by simp⟩
        rw [depthAll_snoc]; omega
      split at h
      · rename_i hc
        simp only [Option.some.injEq] at h
        subst h hc
        refine ⟨t₂ ++ a₂, '[' :: ((e ++ (a ++ v ++ b)) ++ [']']), [], by simp [ht], ⟨t₂, a₂, rfl, ho', ha'⟩,
          .arr (he.then (.one ha hv hb)), by simp [JsonWs], ?_⟩
        simp only [depth, depthAll_snoc]
        omega
      · exact absurd h (by simp)
  · rename_i es k st
    simp only [List.length_cons] at hd
    cases ho with
    | obj ho' ha' he hb' hk hc' hde =>
      rename_i t₂ a₂ e b₂ kt c₂
      split at h
      · rename_i hc
        simp only [Option.some.injEq] at h
        subst h hc
        refine ⟨⟨_, _, _, t₂, a₂, e ++ (b₂ ++ kt ++ c₂ ++ ':' :: (a ++ v ++ b) ++ [',']), [], rfl, by simp [ht], ho',
          ha', .snoc he hb' hk hc' ha hv hb, by simp [JsonWs], ?_⟩, by simp⟩
        rw [depthFields_snoc]; omega
      split at h
      · rename_i hc
        simp only [Option.some.injEq] at h
        subst h hc
        refine ⟨t₂ ++ a₂, '{' :: ((e ++ (b₂ ++ kt ++ c₂ ++ ':' :: (a ++ v ++ b))) ++ ['}']), [], by simp [ht],
          ⟨t₂, a₂, rfl, ho', ha'⟩, .obj (he.then (.one hb' hk hc' ha hv hb)), by simp [JsonWs], ?_⟩
        simp only [depth, depthFields_snoc]
        omega
      · exact absurd h (by simp)

theorem open_length {st : List Frame} {t : List Char} (h : Open f.read st t) : st.length ≤ 127 := by
  cases h with
  | nil => simp
  | arr _ _ _ h => simp; omega
  | obj _ _ _ _ _ _ h => simp; omega

/-- The first character of a value. -/
theorem sound_value {st : List Frame} {closable : Bool} {t : List Char} {c : Char} {p : PS}
    (h0 : ValueDue f.read st t) (hcl : closable = true → ∃ st', st = .arr [] :: st')
    (h : stepValue st closable c = some p) : ReadSoFar f.read p (t ++ [c]) := by
  have hlen : st.length ≤ 127 := by obtain ⟨_, _, _, ho, _⟩ := h0; exact open_length ho
  unfold stepValue at h
  split at h
  · rename_i hw
    simp only [Option.some.injEq] at h
    subst h
    obtain ⟨t₀, a, rfl, ho, ha⟩ := h0
    exact ⟨⟨t₀, a ++ [c], by simp, ho, ws_snoc ha hw⟩, hcl⟩
  split at h
  · rename_i hc; simp only [Option.some.injEq] at h; subst h hc
    exact ⟨t, ['n'], rfl, h0, .null, by simp [depth]; omega⟩
  split at h
  · rename_i hc; simp only [Option.some.injEq] at h; subst h hc
    exact ⟨t, ['t'], rfl, h0, .true, by simp [depth]; omega⟩
  split at h
  · rename_i hc; simp only [Option.some.injEq] at h; subst h hc
    exact ⟨t, ['f'], rfl, h0, .false, by simp [depth]; omega⟩
  split at h
  · rename_i hc; simp only [Option.some.injEq] at h; subst h hc
    exact ⟨t, [], rfl, h0, .nil⟩
  split at h
  · rename_i hc; split at h
    · simp only [Option.some.injEq] at h; subst h hc
      obtain ⟨t₀, a, rfl, ho, ha⟩ := h0
      exact ⟨⟨_, [], by simp, .arr ho ha .nil (by simp [depthAll]; omega), by simp [JsonWs]⟩, fun _ => ⟨st, rfl⟩⟩
    · exact absurd h (by simp)
  split at h
  · rename_i hc; split at h
    · simp only [Option.some.injEq] at h; subst h hc
      obtain ⟨t₀, a, rfl, ho, ha⟩ := h0
      exact ⟨⟨[], "", st, t₀, a, [], [], rfl, by simp, ho, ha, .nil, by simp [JsonWs], by simp [depthFields]; omega⟩,
        fun _ => ⟨"", st, rfl⟩⟩
    · exact absurd h (by simp)
  split at h
  · simp only [Option.some.injEq] at h; subst h
    exact ⟨t, rfl, h0⟩
  split at h
  · rename_i hc
    obtain ⟨rfl, hc⟩ := hc
    obtain ⟨st', rfl⟩ := hcl hc
    simp only [Option.some.injEq] at h
    subst h
    obtain ⟨t₀, a, rfl, ho, ha⟩ := h0
    cases ho with
    | arr ho' ha' he hde =>
      rename_i t₂ a₂ e
      rw [he.nil_of rfl]
      simp only [depthAll] at hde
      exact ⟨t₂ ++ a₂, '[' :: (a ++ [']']), [], by simp, ⟨t₂, a₂, rfl, ho', ha'⟩, .emptyArr ha, by simp [JsonWs],
        by simp [depth, depthAll]; omega⟩
  · exact absurd h (by simp)

/-- A complete string. -/
theorem sound_str {st : List Frame} {isKey : Bool} {acc t s : List Char} {p : PS} (h0 : StrDue f.read st isKey t)
    (hs : CharsText s acc) (h : endStr st isKey acc = some p) :
    ReadSoFar f.read p (t ++ '"' :: s ++ ['"']) := by
  unfold endStr at h
  unfold StrDue at h0
  split at h
  · rename_i hk
    rw [if_pos hk] at h0
    obtain ⟨es, key, st', t₀, a, e, b, rfl, rfl, ho, ha, he, hb, hd⟩ := h0
    simp only [Option.some.injEq] at h
    subst h
    exact ⟨es, _, st', t₀, a, e, b, '"' :: (s ++ ['"']), [], rfl, by simp, ho, ha, he, hb, ⟨hs⟩, by simp [JsonWs], hd⟩
  · rename_i hk
    rw [if_neg hk] at h0
    simp only [Option.some.injEq] at h
    subst h
    have hlen : st.length ≤ 127 := by obtain ⟨_, _, _, ho, _⟩ := h0; exact open_length ho
    exact ⟨t, '"' :: (s ++ ['"']), [], by simp, h0, .str ⟨hs⟩, by simp [JsonWs], by simp [depth]; omega⟩

/-- After `\uXXXX`. -/
theorem sound_hex {st : List Frame} {isKey : Bool} {acc t s u : List Char} {n : Nat} {p : PS}
    (h0 : StrDue f.read st isKey t) (hs : CharsText s acc) (hu : CodeUnit u n)
    (h : endHex st isKey acc none n = some p) : ReadSoFar f.read p (t ++ '"' :: (s ++ u)) := by
  unfold endHex at h
  simp only at h
  split at h
  · rename_i hn
    simp only [Option.some.injEq] at h
    subst h
    exact ⟨t, s, u, by simp, h0, hs, hu, hn.1, hn.2⟩
  split at h
  · exact absurd h (by simp)
  · simp only [Option.some.injEq] at h
    subst h
    exact ⟨t, s ++ u, rfl, h0, hs.snoc (.unit hu (by omega))⟩

/-- After the second `\uXXXX`. -/
theorem sound_pair {st : List Frame} {isKey : Bool} {acc t s u u' : List Char} {m n : Nat} {p : PS}
    (h0 : StrDue f.read st isKey t) (hs : CharsText s acc) (hu : CodeUnit u m) (h1 : 0xD800 ≤ m) (h2 : m ≤ 0xDBFF)
    (hu' : CodeUnit u' n) (h : endHex st isKey acc (some m) n = some p) :
    ReadSoFar f.read p (t ++ '"' :: (s ++ u ++ u')) := by
  unfold endHex at h
  simp only at h
  split at h
  · rename_i hn
    simp only [Option.some.injEq] at h
    subst h
    exact ⟨t, s ++ (u ++ u'), by simp, h0, hs.snoc (.pair hu hu' h1 h2 hn.1 hn.2)⟩
  · exact absurd h (by simp)

theorem sound_step {p p' : PS} {t : List Char} {c : Char} (hp : ReadSoFar f.read p t) (h : stepChar f p c = some p') :
    ReadSoFar f.read p' (t ++ [c]) := by
  obtain ⟨st, mode⟩ := p
  cases mode with
  | value closable => exact sound_value hp.1 hp.2 h
  | key closable =>
    obtain ⟨hk, hcl⟩ := hp
    simp only [stepChar] at h
    split at h
    · rename_i hw
      simp only [Option.some.injEq] at h; subst h
      obtain ⟨es, key, st', t₀, a, e, b, hst, rfl, ho, ha, he, hb, hd⟩ := hk
      exact ⟨⟨es, key, st', t₀, a, e, b ++ [c], hst, by simp, ho, ha, he, ws_snoc hb hw, hd⟩, hcl⟩
    split at h
    · rename_i hc
      simp only [Option.some.injEq] at h; subst h hc
      exact ⟨t, [], rfl, hk, .nil⟩
    split at h
    · rename_i hc
      obtain ⟨rfl, hc⟩ := hc
      obtain ⟨k, st', hst⟩ := hcl hc
      simp only at hst
      subst hst
      simp only [Option.some.injEq] at h; subst h
      obtain ⟨es, key, st', t₀, a, e, b, hst, rfl, ho, ha, he, hb, hd⟩ := hk
      simp only [List.cons.injEq, Frame.obj.injEq] at hst
      obtain ⟨⟨rfl, rfl⟩, rfl⟩ := hst
      rw [he.nil_of rfl]
      simp only [depthFields] at hd
      exact ⟨t₀ ++ a, '{' :: (b ++ ['}']), [], by simp, ⟨t₀, a, rfl, ho, ha⟩, .emptyObj hb, by simp [JsonWs],
        by simp [depth, depthFields]; omega⟩
    · exact absurd h (by simp)
  | colon =>
    obtain ⟨es, key, st', t₀, a, e, b, k, cw, hst, rfl, ho, ha, he, hb, hk, hcw, hd⟩ := hp
    simp only at hst
    subst hst
    simp only [stepChar] at h
    split at h
    · rename_i hw
      simp only [Option.some.injEq] at h; subst h
      exact ⟨es, key, st', t₀, a, e, b, k, cw ++ [c], rfl, by simp, ho, ha, he, hb, hk, ws_snoc hcw hw, hd⟩
    split at h
    · rename_i hc
      simp only [Option.some.injEq] at h; subst h hc
      exact ⟨⟨_, [], by simp, .obj ho ha he hb hk hcw hd, by simp [JsonWs]⟩, by simp⟩
    · exact absurd h (by simp)
  | after j =>
    obtain ⟨t₀, v, b, ht, h0, hv, hb, hd⟩ := hp
    exact sound_after ht h0 hv hb hd h
  | lit rest j =>
    obtain ⟨t₀, x, rfl, h0, hv, hd⟩ := hp
    match rest with
    | [] => exact absurd h (by simp [stepChar])
    | [y] =>
      simp only [stepChar] at h
      split at h
      · rename_i hc
        simp only [Option.some.injEq] at h; subst h hc
        exact ⟨t₀, x ++ [c], [], by simp, h0, hv, by simp [JsonWs], hd⟩
      · exact absurd h (by simp)
    | y :: z :: r =>
      simp only [stepChar] at h
      split at h
      · rename_i hc
        simp only [Option.some.injEq] at h; subst h hc
        exact ⟨t₀, x ++ [c], by simp, h0, by simpa using hv, hd⟩
      · exact absurd h (by simp)
  | num tok =>
    obtain ⟨t₀, rfl, h0⟩ := hp
    simp only [stepChar] at h
    split at h
    · simp only [Option.some.injEq] at h; subst h
      exact ⟨t₀, by simp, h0⟩
    · obtain ⟨j, hj, h⟩ := Option.bind_eq_some_iff.1 h
      have hn := (numVal_iff _ _).1 hj
      have hlen : st.length ≤ 127 := by obtain ⟨_, _, _, ho, _⟩ := h0; exact open_length ho
      have hd0 : depth j = 0 := by cases hn <;> rfl
      exact sound_after (b := []) (by simp) h0 (.num hn) (by simp [JsonWs]) (by rw [hd0]; exact hlen) h
  | str isKey acc =>
    obtain ⟨t₀, s, rfl, h0, hs⟩ := hp
    simp only [stepChar] at h
    split at h
    · rename_i hc; subst hc
      exact sound_str h0 hs h
    split at h
    · rename_i hc
      simp only [Option.some.injEq] at h; subst h hc
      exact ⟨t₀, s, by simp, h0, hs⟩
    split at h
    · exact absurd h (by simp)
    · rename_i h1 h2 h3
      simp only [Option.some.injEq] at h; subst h
      exact ⟨t₀, s ++ [c], by simp, h0, hs.snoc (.plain c (by omega) h1 h2)⟩
  | esc isKey acc =>
    obtain ⟨t₀, s, rfl, h0, hs⟩ := hp
    have go : ∀ x : Char, CharText ['\\', c] x → ReadSoFar f.read ⟨st, .str isKey (acc ++ [x])⟩
        (t₀ ++ '"' :: (s ++ ['\\']) ++ [c]) := fun x hx =>
      ⟨t₀, s ++ ['\\', c], by simp, h0, hs.snoc hx⟩
    simp only [stepChar] at h
    split at h
    · rename_i hc
      simp only [Option.some.injEq] at h; subst h
      rcases hc with rfl | rfl | rfl
      · exact go _ .quote
      · exact go _ .backslash
      · exact go _ .slash
    split at h
    · rename_i hc; simp only [Option.some.injEq] at h; subst h hc; exact go _ .backspace
    split at h
    · rename_i hc; simp only [Option.some.injEq] at h; subst h hc; exact go _ .tab
    split at h
    · rename_i hc; simp only [Option.some.injEq] at h; subst h hc; exact go _ .lineFeed
    split at h
    · rename_i hc; simp only [Option.some.injEq] at h; subst h hc; exact go _ .formFeed
    split at h
    · rename_i hc; simp only [Option.some.injEq] at h; subst h hc; exact go _ .return
    split at h
    · rename_i hc; simp only [Option.some.injEq] at h; subst h hc
      exact ⟨t₀, s, [], by simp, h0, hs, .nil, by simp⟩
    · exact absurd h (by simp)
  | hex isKey acc high digits =>
    simp only [stepChar] at h
    obtain ⟨d, hd, h⟩ := Option.bind_eq_some_iff.1 h
    have hx := (hexVal_iff _ _).1 hd
    cases high with
    | none =>
      obtain ⟨t₀, s, hh, rfl, h0, hs, hdig, hl⟩ := hp
      split at h
      · rename_i h3
        have hu := hexDigits_unit (hdig.snoc hx) (by simp [h3])
        have := sound_hex h0 hs hu h
        simpa using this
      · simp only [Option.some.injEq] at h; subst h
        exact ⟨t₀, s, hh ++ [c], by simp, h0, hs, hdig.snoc hx, by simp; omega⟩
    | some m =>
      obtain ⟨t₀, s, u, hh, rfl, h0, hs, hu, h1, h2, hdig, hl⟩ := hp
      split at h
      · rename_i h3
        have hu' := hexDigits_unit (hdig.snoc hx) (by simp [h3])
        have := sound_pair h0 hs hu h1 h2 hu' h
        simpa using this
      · simp only [Option.some.injEq] at h; subst h
        exact ⟨t₀, s, u, hh ++ [c], by simp, h0, hs, hu, h1, h2, hdig.snoc hx, by simp; omega⟩
  | pair isKey acc m slash =>
    obtain ⟨t₀, s, u, rfl, h0, hs, hu, h1, h2⟩ := hp
    simp only [stepChar] at h
    split at h
    · rename_i hsl
      split at h
      · rename_i hc
        simp only [Option.some.injEq] at h; subst h hc
        exact ⟨t₀, s, u, [], by simp [hsl], h0, hs, hu, h1, h2, .nil, by simp⟩
      · exact absurd h (by simp)
    · rename_i hsl
      split at h
      · rename_i hc
        simp only [Option.some.injEq] at h; subst h hc
        exact ⟨t₀, s, u, by simp [hsl], h0, hs, hu, h1, h2⟩
      · exact absurd h (by simp)

theorem open_nil {t : List Char} (h : Open f.read [] t) : t = [] := by
  cases h; rfl

theorem sound_finish {p : PS} {t : List Char} {j : Json} (hp : ReadSoFar f.read p t) (h : finish f p = some j) :
    JsonText f.read t j ∧ depth j ≤ 127 := by
  obtain ⟨st, mode⟩ := p
  unfold finish at h
  split at h
  · rename_i hst hm
    simp only at hst hm
    subst hst hm
    simp only [Option.some.injEq] at h
    subst h
    obtain ⟨t₀, v, b, rfl, ⟨t₁, a, rfl, ho, ha⟩, hv, hb, hd⟩ := hp
    rw [open_nil ho]
    exact ⟨⟨a, v, b, rfl, ha, hv, hb⟩, by simpa using hd⟩
  · rename_i hst hm
    simp only at hst hm
    subst hst hm
    obtain ⟨t₀, rfl, t₁, a, rfl, ho, ha⟩ := hp
    rw [open_nil ho]
    have hn := (numVal_iff _ _).1 h
    have hd0 : depth j = 0 := by cases hn <;> rfl
    exact ⟨⟨a, _, [], by simp, ha, .num hn, by simp [JsonWs]⟩, by omega⟩
  · exact absurd h (by simp)

theorem sound_read {p : PS} {t r : List Char} {j : Json} (hp : ReadSoFar f.read p t) (h : readFrom f p r = some j) :
    JsonText f.read (t ++ r) j ∧ depth j ≤ 127 := by
  induction r generalizing p t with
  | nil => simpa using sound_finish hp h
  | cons c r ih =>
    rw [read_cons] at h
    obtain ⟨p', hs, h⟩ := Option.bind_eq_some_iff.1 h
    simpa using ih (sound_step hp hs) h

/-- Whatever is read is a JSON text, and the value is the one it stands for. -/
theorem parse_sound {text : List Char} {j : Json} (h : parseJson f text = some j) :
    JsonText f.read text j ∧ depth j ≤ 127 := by
  have : ReadSoFar f.read {} [] := ⟨⟨[], [], rfl, .nil, by simp [JsonWs]⟩, by simp⟩
  simpa using sound_read this h

end AstroRun.Wire
