import Verif.Props.JsonText

/-! # C57: a message that is cut short is not taken for another one -/

namespace AstroRun
open Wire

namespace Wire
variable {f : FloatText}

/-- The reader on a text, without the end. -/
def steps (f : FloatText) : PS → List Char → Option PS
  | p, [] => some p
  | p, c :: cs => (stepChar f p c).bind fun p => steps f p cs

theorem read_steps (p : PS) (a b : List Char) :
    readFrom f p (a ++ b) = (steps f p a).bind fun p => readFrom f p b := by
  induction a generalizing p with
  | nil => rfl
  | cons c a ih =>
    simp only [List.cons_append, readFrom, steps]
    cases stepChar f p c with
    | none => rfl
    | some p' => simpa using ih p'

/-- The reader has a complete value. -/
def Complete (p : PS) : Prop := p.stack = [] ∧ ((∃ j, p.mode = .after j) ∨ ∃ tok, p.mode = .num tok)

theorem complete_of_finish {p : PS} {j : Json} (h : finish f p = some j) : Complete p := by
  unfold finish at h
  split at h
  · exact ⟨by assumption, .inl ⟨_, by assumption⟩⟩
  · exact ⟨by assumption, .inr ⟨_, by assumption⟩⟩
  · simp at h

theorem complete_after {st : List Frame} {j : Json} {c : Char} {p : PS} (hst : st = [])
    (h : stepAfter st j c = some p) : Complete p ∧ c ≠ '}' := by
  subst hst
  simp only [stepAfter] at h
  split at h
  · rename_i hw
    simp only [Option.some.injEq] at h
    subst h
    refine ⟨⟨rfl, .inl ⟨_, rfl⟩⟩, ?_⟩
    rintro rfl
    simp [isWs] at hw
  · simp at h

/-- After a complete value no brace is accepted. -/
theorem complete_step {p p' : PS} {c : Char} (hp : Complete p) (h : stepChar f p c = some p') :
    Complete p' ∧ c ≠ '}' := by
  obtain ⟨st, mode⟩ := p
  obtain ⟨hst, ⟨j, hm⟩ | ⟨tok, hm⟩⟩ := hp
  · simp only at hm hst
    subst hm
    exact complete_after hst h
  · simp only at hm hst
    subst hm
    simp only [stepChar] at h
    split at h
    · rename_i hn
      simp only [Option.some.injEq] at h
      subst h
      refine ⟨⟨hst, .inr ⟨_, rfl⟩⟩, ?_⟩
      rintro rfl
      simp [isNumChar] at hn
    · cases hv : numVal f tok with
      | none => simp [hv] at h
      | some j => simp only [hv, Option.bind_some] at h; exact complete_after hst h

theorem complete_steps {p : PS} (hp : Complete p) (l : List Char) (h : readFrom f p l ≠ none) : '}' ∉ l := by
  induction l generalizing p with
  | nil => simp
  | cons c l ih =>
    simp only [readFrom] at h
    cases hs : stepChar f p c with
    | none => simp [hs] at h
    | some p' =>
      simp only [hs, Option.bind_some] at h
      obtain ⟨h1, h2⟩ := complete_step hp hs
      intro hm
      rcases List.mem_cons.1 hm with e | hm
      · exact h2 e.symm
      · exact ih h1 h hm

theorem fields_last (es : List (String × Json)) : ∃ l, printFields f es = l ++ ['}'] := by
  induction es with
  | nil => exact ⟨[], rfl⟩
  | cons e es ih =>
    obtain ⟨k, j⟩ := e
    obtain ⟨l, hl⟩ := ih
    exact ⟨',' :: (printStr k ++ ':' :: (printJson f j ++ l)), by simp [printFields, hl]⟩

theorem obj_last (es : List (String × Json)) : ∃ l, printJson f (.obj es) = l ++ ['}'] := by
  match es with
  | [] => exact ⟨['{'], rfl⟩
  | (k, j) :: es =>
    obtain ⟨l, hl⟩ := fields_last (f := f) es
    exact ⟨'{' :: (printStr k ++ ':' :: (printJson f j ++ l)), by simp [printJson, hl]⟩

theorem parse_truncated (es : List (String × Json)) (hj : Fits f (.obj es)) (hd : depth (.obj es) ≤ 127)
    (a b : List Char) (h : a ++ b = printJson f (.obj es)) (hb : b ≠ []) : parseJson f a = none := by
  have hfull := parse_print (.obj es) hj hd
  rw [← h, parseJson, read_steps] at hfull
  have hend : '}' ∈ b := by
    obtain ⟨l, hl⟩ := obj_last (f := f) es
    rw [hl] at h
    have := congrArg List.getLast? h
    simp only [List.getLast?_append, List.getLast?_singleton, Option.some_or] at this
    cases hg : b.getLast? with
    | none => exact absurd (List.getLast?_eq_none_iff.1 hg) hb
    | some c =>
      simp only [hg, Option.some_or, Option.some.injEq] at this
      subst this
      exact List.mem_of_getLast? hg
  have hcut : readFrom f {} (a ++ []) = _ := read_steps {} a []
  rw [List.append_nil] at hcut
  unfold parseJson
  rw [hcut]
  cases hs : steps f {} a with
  | none => rfl
  | some p =>
    simp only [hs, Option.bind_some] at hfull ⊢
    cases hf : finish f p with
    | none => simp [readFrom, hf]
    | some j =>
      exact absurd hend (complete_steps (complete_of_finish hf) b (by rw [hfull]; simp))

end Wire

/-- **C57** If the bytes of a message do not all arrive, no message comes out: what was received is refused, or, if
nothing was received, there is no message. -/
theorem C57_truncated {α : Type} (f : FloatText) (dec : Json → Option α) (es : List (String × Json))
    (hj : Fits f (.obj es)) (hd : depth (.obj es) ≤ 127) (received lost : ByteArray)
    (h : received ++ lost = codecEncode f (.obj es)) (hl : lost.size ≠ 0) :
    codecDecode f dec received = if received.size = 0 then some none else none := by
  unfold codecDecode
  split
  · rfl
  · cases hs : String.fromUTF8? received with
    | none => rfl
    | some s =>
      have hrec : received = s.toList.utf8Encode := by
        unfold String.fromUTF8? at hs
        split at hs
        · simp only [Option.some.injEq] at hs
          subst hs
          simp only [String.utf8Encode_toList]
          rfl
        · simp at hs
      have hp : s.toList <+: printJson f (.obj es) := by
        apply List.isPrefix_of_utf8Encode_append_eq_utf8Encode lost
        rw [← hrec, h]
        simp [codecEncode]
      obtain ⟨b, hb⟩ := hp
      have hbne : b ≠ [] := by
        rintro rfl
        rw [List.append_nil] at hb
        have h2 := congrArg ByteArray.size h
        rw [ByteArray.size_append, hrec, hb] at h2
        simp only [codecEncode, String.toUTF8_eq_toByteArray, String.toByteArray_ofList] at h2
        omega
      simp [parse_truncated es hj hd s.toList b hb hbne]

/-- **C57** So a cut event, context, response or registration is never taken for another one. -/
theorem C57_truncated_messages {Pl : Type} (f : FloatText) (x : Ext Pl) (received lost : ByteArray)
    (hr : received.size ≠ 0) (hl : lost.size ≠ 0) :
    (∀ e : ProtocolEvent Pl, EventFits f x e → received ++ lost = codecEncode f (encEvent x e) →
      codecDecode f (decEvent x) received = none) ∧
    (∀ c : Wire.Context, ContextFits f c → received ++ lost = codecEncode f (encContext c) →
      codecDecode f decContext received = none) ∧
    (∀ r : Wire.RunResponse, ResponseFits r → received ++ lost = codecEncode f (encResponse r) →
      codecDecode f decResponse received = none) ∧
    (∀ m : RunnerMeta, I64 m.maxRuns → received ++ lost = codecEncode f (encMeta m) →
      codecDecode f decMeta received = none) := by
  have key : ∀ {α : Type} (dec : Json → Option α) (j : Json), (∃ es, j = .obj es) → Small f 127 j →
      received ++ lost = codecEncode f j → codecDecode f dec received = none := by
    rintro α dec j ⟨es, rfl⟩ hs h
    rw [C57_truncated f dec es hs.1 hs.2 received lost h hl, if_neg hr]
  refine ⟨fun e he h => key _ _ ?_ (small_event he) h, fun c hc h => key _ _ ⟨_, rfl⟩ (small_context hc) h,
    fun r hr h => key _ _ ?_ (small_response hr) h, fun m hm h => key _ _ ⟨_, rfl⟩ (small_meta hm) h⟩
  · cases e <;> exact ⟨_, rfl⟩
  · cases r <;> exact ⟨_, rfl⟩

/-- All but the last byte of an answer. -/
example : ∃ received lost : ByteArray, received.size ≠ 0 ∧ lost.size ≠ 0 ∧
    ResponseFits (.result ⟨"w", "j", 1⟩ .succeeded) ∧
    received ++ lost = codecEncode JsonEx.floats (encResponse (.result ⟨"w", "j", 1⟩ .succeeded)) :=
  ⟨"{\"Result\":{\"step_id\":[\"w\",\"j\",1],\"result\":\"Succeeded\"}".toUTF8, "}".toUTF8, by decide, by decide,
    by unfold ResponseFits U64; decide, by decide +kernel⟩

end AstroRun
