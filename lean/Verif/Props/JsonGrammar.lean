import Verif.Lemmas.JsonSound

/-! # C57: what the codec accepts -/

namespace AstroRun
open Wire Spec

/-- **C57** The texts the receiving side reads are exactly the JSON texts of RFC 8259 with at most 127 arrays and
objects open at once, and it reads the value the text stands for.  In particular a text with mismatched brackets, a
control character in a string, a half surrogate pair, a leading zero or anything after the value is refused. -/
theorem C57_json_grammar (f : FloatText) (text : List Char) (j : Json) :
    parseJson f text = some j ↔ JsonText f.read text j ∧ depth j ≤ 127 :=
  ⟨parse_sound, fun h => parse_complete h.1 h.2⟩

/-- **C57** A message is received exactly from the bytes of a JSON text whose value is that message's; all other bytes,
but for no bytes at all, are refused. -/
theorem C57_received (f : FloatText) {α : Type} (dec : Json → Option α) (bytes : ByteArray) (a : α) :
    codecDecode f dec bytes = some (some a) ↔
      ∃ (text : String) (j : Json), bytes = text.toUTF8 ∧ JsonText f.read text.toList j ∧ depth j ≤ 127 ∧
        dec j = some a := by
  constructor
  · intro h
    unfold codecDecode at h
    split at h
    · exact absurd h (by simp)
    obtain ⟨x, hx, h⟩ := Option.map_eq_some_iff.1 h
    simp only [Option.some.injEq] at h
    subst h
    obtain ⟨s, hs, hx⟩ := Option.bind_eq_some_iff.1 hx
    obtain ⟨j, hj, hx⟩ := Option.bind_eq_some_iff.1 hx
    refine ⟨s, j, ?_, (parse_sound hj).1, (parse_sound hj).2, hx⟩
    unfold String.fromUTF8? at hs
    split at hs
    · simp only [Option.some.injEq] at hs
      subst hs
      rfl
    · exact absurd hs (by simp)
  · rintro ⟨text, j, rfl, hj, hd, ha⟩
    have hp := parse_complete hj hd
    have hne : text.toUTF8.size ≠ 0 := by
      intro h0
      have h1 : text.utf8ByteSize = 0 := h0
      have h2 : text = "" := by simpa [String.utf8ByteSize_eq_zero_iff] using h1
      rw [h2] at hp
      exact absurd hp (by simp [parseJson, readFrom, finish])
    unfold codecDecode
    have hu : String.fromUTF8? text.toUTF8 = some text := by
      unfold String.fromUTF8?
      have hv : text.toUTF8.IsValidUTF8 := text.isValidUTF8
      rw [dif_pos hv]
      rfl
    rw [if_neg hne, hu]
    simp [hp, ha]

/-- A JSON text stands for one value: the grammar is unambiguous (as far as the reader goes). -/
theorem C57_unambiguous (f : FloatText) (text : List Char) (i j : Json) (hi : JsonText f.read text i)
    (hj : JsonText f.read text j) (hdi : depth i ≤ 127) (hdj : depth j ≤ 127) : i = j := by
  have h1 := parse_complete hi hdi
  have h2 := parse_complete hj hdj
  rw [h1] at h2
  simpa using h2

/-- Texts that are refused, and one with white space and escapes that is read. -/
example (f : FloatText) :
    parseJson f "{\"a\": [1, 2}".toList = none ∧ parseJson f "[1}".toList = none ∧
    parseJson f ['"', '\n', '"'] = none ∧ parseJson f "01".toList = none ∧ parseJson f "\"\\ud800x\"".toList = none ∧
    parseJson f "{\"a\":1,}".toList = none ∧ parseJson f "true false".toList = none := by
  refine ⟨rfl, rfl, rfl, rfl, rfl, rfl, rfl⟩

example (f : FloatText) : JsonText f.read " { \"k\" : [ -7 , \"\\u0041\\ud83d\\ude00\" ] }\n".toList
    (.obj [("k", .arr [.int (-7), .str "A😀"])]) :=
  ((C57_json_grammar f _ _).1 rfl).1

end AstroRun
