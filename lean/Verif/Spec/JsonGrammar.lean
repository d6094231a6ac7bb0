import Verif.Model.Wire

/-!
# Specification: RFC 8259

The grammar of JSON texts, with the value each text stands for.  Written without the reader of `Model/JsonText.lean`.
`readFloat` says which float a number text stands for, none if it is out of range.
-/

namespace AstroRun.Spec
open AstroRun.Wire (Json)

/-- `ws` -/
def JsonWs (t : List Char) : Prop := ∀ c ∈ t, c = ' ' ∨ c = '\n' ∨ c = '\t' ∨ c = '\r'

/-- `*DIGIT` -/
def Digits (t : List Char) : Prop := ∀ c ∈ t, '0' ≤ c ∧ c ≤ '9'

/-- `4HEXDIG` and its value -/
inductive HexDigit : Char → Nat → Prop
  | dec (d : Nat) : d < 10 → HexDigit (Char.ofNat (48 + d)) d
  | lower (d : Nat) : d < 6 → HexDigit (Char.ofNat (97 + d)) (10 + d)
  | upper (d : Nat) : d < 6 → HexDigit (Char.ofNat (65 + d)) (10 + d)

/-- `%x5C %x75 4HEXDIG`: `\uXXXX` and the code unit it stands for. -/
inductive CodeUnit : List Char → Nat → Prop
  | mk {c₁ c₂ c₃ c₄ : Char} {d₁ d₂ d₃ d₄ : Nat} : HexDigit c₁ d₁ → HexDigit c₂ d₂ → HexDigit c₃ d₃ → HexDigit c₄ d₄ →
      CodeUnit ['\\', 'u', c₁, c₂, c₃, c₄] (4096 * d₁ + 256 * d₂ + 16 * d₃ + d₄)

/-- `char` and the character it stands for.  Code units outside the basic plane come in pairs (RFC 8259, section 7). -/
inductive CharText : List Char → Char → Prop
  | plain (c : Char) : 32 ≤ c.toNat → c ≠ '"' → c ≠ '\\' → CharText [c] c
  | quote : CharText ['\\', '"'] '"'
  | backslash : CharText ['\\', '\\'] '\\'
  | slash : CharText ['\\', '/'] '/'
  | backspace : CharText ['\\', 'b'] (Char.ofNat 8)
  | formFeed : CharText ['\\', 'f'] (Char.ofNat 12)
  | lineFeed : CharText ['\\', 'n'] '\n'
  | return : CharText ['\\', 'r'] '\r'
  | tab : CharText ['\\', 't'] '\t'
  | unit {t : List Char} {n : Nat} : CodeUnit t n → ¬ (0xD800 ≤ n ∧ n ≤ 0xDFFF) → CharText t (Char.ofNat n)
  | pair {t₁ t₂ : List Char} {h l : Nat} : CodeUnit t₁ h → CodeUnit t₂ l → 0xD800 ≤ h → h ≤ 0xDBFF → 0xDC00 ≤ l →
      l ≤ 0xDFFF → CharText (t₁ ++ t₂) (Char.ofNat (0x10000 + (h - 0xD800) * 0x400 + (l - 0xDC00)))

/-- `*char` -/
inductive CharsText : List Char → List Char → Prop
  | nil : CharsText [] []
  | cons {t ts : List Char} {c : Char} {cs : List Char} : CharText t c → CharsText ts cs →
      CharsText (t ++ ts) (c :: cs)

/-- `string` -/
inductive StrText : List Char → String → Prop
  | mk {t cs : List Char} : CharsText t cs → StrText ('"' :: (t ++ ['"'])) (String.ofList cs)

/-- The number a list of digits stands for. -/
def natOf : List Char → Nat → Nat
  | [], n => n
  | c :: t, n => natOf t (10 * n + (c.toNat - 48))

/-- `int`: no leading zeros -/
def IntPart (t : List Char) : Prop := t ≠ [] ∧ Digits t ∧ (t.head? = some '0' → t = ['0'])

/-- `frac` -/
inductive Frac : List Char → Prop
  | mk {t : List Char} : t ≠ [] → Digits t → Frac ('.' :: t)

/-- `exp` -/
inductive Exp : List Char → Prop
  | mk {e : Char} {sign t : List Char} : e = 'e' ∨ e = 'E' → sign = [] ∨ sign = ['+'] ∨ sign = ['-'] →
      t ≠ [] → Digits t → Exp (e :: (sign ++ t))

/-- `number` and its value: an integer if it has neither a fraction nor an exponent and fits `u64` or `i64`; otherwise
a float.  (`-0` is a float.) -/
inductive NumText (readFloat : String → Option String) : List Char → Json → Prop
  | nat {t : List Char} : IntPart t → natOf t 0 < 2 ^ 64 → NumText readFloat t (.int (natOf t 0))
  | neg {t : List Char} : IntPart t → 0 < natOf t 0 → natOf t 0 ≤ 2 ^ 63 →
      NumText readFloat ('-' :: t) (.int (-(natOf t 0 : Int)))
  | float {minus t frac exp : List Char} {x : String} : minus = [] ∨ minus = ['-'] → IntPart t →
      frac = [] ∨ Frac frac → exp = [] ∨ Exp exp →
      (frac = [] → exp = [] →
        (minus = [] → 2 ^ 64 ≤ natOf t 0) ∧ (minus = ['-'] → natOf t 0 = 0 ∨ 2 ^ 63 < natOf t 0)) →
      readFloat (String.ofList (minus ++ t ++ frac ++ exp)) = some x →
      NumText readFloat (minus ++ t ++ frac ++ exp) (.float x)

mutual
/-- `value` -/
inductive ValueText (readFloat : String → Option String) : List Char → Json → Prop
  | null : ValueText readFloat ['n', 'u', 'l', 'l'] .null
  | true : ValueText readFloat ['t', 'r', 'u', 'e'] (.bool Bool.true)
  | false : ValueText readFloat ['f', 'a', 'l', 's', 'e'] (.bool Bool.false)
  | num {t : List Char} {j : Json} : NumText readFloat t j → ValueText readFloat t j
  | str {t : List Char} {s : String} : StrText t s → ValueText readFloat t (.str s)
  | emptyArr {w : List Char} : JsonWs w → ValueText readFloat ('[' :: (w ++ [']'])) (.arr [])
  | arr {t : List Char} {js : List Json} : ItemsText readFloat t js → ValueText readFloat ('[' :: (t ++ [']'])) (.arr js)
  | emptyObj {w : List Char} : JsonWs w → ValueText readFloat ('{' :: (w ++ ['}'])) (.obj [])
  | obj {t : List Char} {es : List (String × Json)} : MembersText readFloat t es →
      ValueText readFloat ('{' :: (t ++ ['}'])) (.obj es)
/-- `value *( value-separator value )` -/
inductive ItemsText (readFloat : String → Option String) : List Char → List Json → Prop
  | one {a v b : List Char} {j : Json} : JsonWs a → ValueText readFloat v j → JsonWs b →
      ItemsText readFloat (a ++ v ++ b) [j]
  | more {a v b t : List Char} {j : Json} {js : List Json} : JsonWs a → ValueText readFloat v j → JsonWs b →
      ItemsText readFloat t js → ItemsText readFloat (a ++ v ++ b ++ ',' :: t) (j :: js)
/-- `member *( value-separator member )`, `member = string name-separator value` -/
inductive MembersText (readFloat : String → Option String) : List Char → List (String × Json) → Prop
  | one {a k b c v d : List Char} {key : String} {j : Json} : JsonWs a → StrText k key → JsonWs b → JsonWs c →
      ValueText readFloat v j → JsonWs d → MembersText readFloat (a ++ k ++ b ++ ':' :: (c ++ v ++ d)) [(key, j)]
  | more {a k b c v d t : List Char} {key : String} {j : Json} {es : List (String × Json)} :
      JsonWs a → StrText k key → JsonWs b → JsonWs c → ValueText readFloat v j → JsonWs d →
      MembersText readFloat t es →
      MembersText readFloat (a ++ k ++ b ++ ':' :: (c ++ v ++ d) ++ ',' :: t) ((key, j) :: es)
end

/-- `JSON-text = ws value ws` -/
def JsonText (readFloat : String → Option String) (text : List Char) (j : Json) : Prop :=
  ∃ a v b, text = a ++ v ++ b ∧ JsonWs a ∧ ValueText readFloat v j ∧ JsonWs b

end AstroRun.Spec
