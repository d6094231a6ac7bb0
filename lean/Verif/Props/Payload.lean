import Verif.Spec.Payload
import Verif.Props.JsonText

/-! # C92: the user's payload -/

namespace AstroRun
open Wire

namespace Wire
variable {g : Program} {f : FloatText}

theorem small_payload {p : Payload g} {j : Json} (hf : Fits f j) (hd : depth j ≤ 126) :
    Fits f (.obj [((g.info p.ty).name, j)]) ∧ depth (.obj [((g.info p.ty).name, j)]) ≤ 127 := by
  refine ⟨by simp only [Fits, FitsFields]; exact ⟨hf, trivial⟩, ?_⟩
  simp only [depth, depthFields]
  omega

theorem clone_faithful {p : Payload g} (h : Faithful f p) : p.clone f = some p := by
  obtain ⟨hreg, j, hser, hf, hd, hde⟩ := h
  obtain ⟨h1, h2⟩ := small_payload (p := p) hf hd
  have hj : p.toJson = some (.obj [((g.info p.ty).name, j)]) := by simp [Payload.toJson, hser]
  simp only [Payload.clone, hj, bind, Option.bind_some, parse_print _ h1 h2, Payload.ofJson, Program.lookup, hreg, hde,
    Option.map_some]

theorem cloneOpt_faithful {p : Option (Payload g)} (h : ∀ a, p = some a → Faithful f a) : cloneOpt f p = some p := by
  cases p with
  | none => rfl
  | some a => simp [cloneOpt, clone_faithful (h a rfl)]

theorem cloneEach_faithful {p : Option (Payload g)} (h : ∀ a, p = some a → Faithful f a) (n : Nat) :
    cloneEach f p n = some (List.replicate n p) := by
  induction n with
  | zero => rfl
  | succ n ih => simp [cloneEach, cloneOpt_faithful h, ih, List.replicate_succ]

end Wire

/-- **C92** (partial) A payload that survives JSON reaches everybody unchanged: every plugin and the runner, with every
event of the workflow, of a job and of a step, and in a job's context; and what the runner gets with a step is a
text from which the payload can be read.  Nothing panics.  Missing for the full claim: the other payloads, see
`C92_refuted`. -/
theorem C92_delivered_partial {g : Program} (f : FloatText) (n : Nat) (ctx : Option (Payload g))
    (h : ∀ p, ctx = some p → Faithful f p) :
    (∃ d, notifyRun f n ctx = some d ∧ AllGot d n ctx) ∧
    (∃ d text, notifyStep f n ctx = some (d, text) ∧ AllGot d n ctx ∧
      text.isSome = ctx.isSome ∧ ∀ s, text = some s → (parseJson f s.toList).bind (Payload.ofJson g) = ctx) ∧
    jobContext f ctx = some ctx := by
  refine ⟨⟨⟨List.replicate n ctx, ctx⟩, ?_, rfl, rfl⟩, ?_, cloneOpt_faithful h⟩
  · simp [notifyRun, cloneOpt_faithful h, cloneEach_faithful h]
  · cases ctx with
    | none =>
      exact ⟨⟨List.replicate n none, none⟩, none, by
        simp [notifyStep, cloneOpt_faithful h, cloneEach_faithful h, payloadString], ⟨rfl, rfl⟩, rfl, by simp⟩
    | some p =>
      have hc := clone_faithful (h p rfl)
      obtain ⟨hreg, j, hser, hf, hd, hde⟩ := h p rfl
      have hj : p.toJson = some (.obj [((g.info p.ty).name, j)]) := by simp [Payload.toJson, hser]
      refine ⟨⟨List.replicate n (some p), some p⟩, some (String.ofList (printJson f (.obj [((g.info p.ty).name, j)]))),
        ?_, ⟨rfl, rfl⟩, rfl, ?_⟩
      · simp [notifyStep, cloneOpt_faithful h, cloneEach_faithful h, payloadString, hj]
      · rintro s hs
        simp only [Option.some.injEq] at hs
        subst hs
        rw [String.toList_ofList]
        simpa [Payload.clone, hj, bind] using hc

/-- **C92** Asking a payload for its own type gives its value; asking for another type gives nothing. -/
theorem C92_typed {g : Program} (t : g.Ty) (v : (g.info t).Val) :
    (Payload.mk t v).get t = some v ∧ ∀ t', t' ≠ t → (Payload.mk t v).get t' = none := by
  refine ⟨by simp [Payload.get], fun t' h => ?_⟩
  simp only [Payload.get]
  rw [dif_neg fun e => h e.symm]

/-- **C92** A payload that cannot be written, or not be read back, never reaches anyone as something else: telling of a
run or a step panics, whoever is listening. -/
theorem C92_never_wrong {g : Program} (f : FloatText) (n : Nat) (p : Payload g) (h : p.clone f = none) :
    notifyRun f n (some p) = none ∧ notifyStep f n (some p) = none ∧ jobContext f (some p) = none := by
  simp [notifyRun, notifyStep, jobContext, cloneOpt, h]

/-- **C92** Nobody gets a payload of another type.  If two registered types have the same name, their payloads cannot be
told apart and are not delivered. -/
theorem C92_same_type {g : Program} (f : FloatText) (p : Payload g) (j : Json) (hs : (g.info p.ty).ser p.val = some j)
    (hj : Fits f j) (hr : p.ty ∈ g.registered) :
    (∀ q, p.clone f = some q → q.ty = p.ty) ∧
    ((∃ t ∈ g.registered, t ≠ p.ty ∧ (g.info t).name = (g.info p.ty).name) →
      p.clone f = none ∧ ∀ n, notifyRun f n (some p) = none ∧ notifyStep f n (some p) = none) := by
  have hfit : Fits f (.obj [((g.info p.ty).name, j)]) := by simp only [Fits, FitsFields]; exact ⟨hj, trivial⟩
  have hto : p.toJson = some (.obj [((g.info p.ty).name, j)]) := by simp [Payload.toJson, hs]
  have hin : p.ty ∈ g.registered.filter fun t => (g.info t).name == (g.info p.ty).name := by simp [hr]
  have key : ∀ q, p.clone f = some q →
      g.registered.filter (fun t => (g.info t).name == (g.info p.ty).name) = [q.ty] := by
    intro q h
    simp only [Payload.clone, hto, bind, Option.bind_some, C57_json_text f _ hfit] at h
    split at h
    · simp only [Option.bind_some, Payload.ofJson] at h
      obtain ⟨t, ht, h⟩ := Option.bind_eq_some_iff.1 h
      obtain ⟨v, _, rfl⟩ := Option.map_eq_some_iff.1 h
      unfold Program.lookup at ht
      split at ht
      · rename_i heq
        simp only [Option.some.injEq] at ht
        subst ht
        exact heq
      · exact absurd ht (by simp)
    · exact absurd h (by simp)
  refine ⟨fun q h => ?_, ?_⟩
  · rw [key q h] at hin
    exact (List.mem_singleton.1 hin).symm
  · rintro ⟨t, ht, hne, hname⟩
    have hnone : p.clone f = none := by
      cases hc : p.clone f with
      | none => rfl
      | some q =>
        exfalso
        have hk := key q hc
        have h2 : t ∈ g.registered.filter fun t => (g.info t).name == (g.info p.ty).name := by simp [ht, hname]
        rw [hk] at hin h2
        exact hne ((List.mem_singleton.1 h2).trans (List.mem_singleton.1 hin).symm)
    exact ⟨hnone, fun n => ⟨(C92_never_wrong f n p hnone).1, (C92_never_wrong f n p hnone).2.1⟩⟩

/-- **C92** The text a payload is given as to a runner's step: nothing exactly if there is no payload, and a panic
exactly if the user's type cannot be written. -/
theorem C92_text {g : Program} (f : FloatText) (ctx : Option (Payload g)) :
    (payloadString f ctx = none ↔ ∃ p, ctx = some p ∧ (g.info p.ty).ser p.val = none) ∧
    (payloadString f ctx = some none ↔ ctx = none) := by
  cases ctx with
  | none => simp [payloadString]
  | some p => cases h : (g.info p.ty).ser p.val <;> simp [payloadString, Payload.toJson, h]

/-- **C92** Which documents are payloads: objects with exactly one key, the name of exactly one registered type, whose
reader accepts the value. -/
theorem C92_reads {g : Program} (j : Json) (q : Payload g) :
    Payload.ofJson g j = some q ↔
      ∃ v, j = .obj [((g.info q.ty).name, v)] ∧ (g.info q.ty).de v = some q.val ∧
        g.registered.filter (fun t => (g.info t).name == (g.info q.ty).name) = [q.ty] := by
  constructor
  · intro h
    unfold Payload.ofJson at h
    split at h
    · rename_i name v
      obtain ⟨t, ht, h⟩ := Option.bind_eq_some_iff.1 h
      obtain ⟨x, hx, rfl⟩ := Option.map_eq_some_iff.1 h
      unfold Program.lookup at ht
      split at ht
      · rename_i t' heq
        simp only [Option.some.injEq] at ht
        subst ht
        have hn : (g.info t').name = name := by
          have : t' ∈ g.registered.filter fun t => (g.info t).name == name := by rw [heq]; simp
          simpa using (List.mem_filter.1 this).2
        subst hn
        exact ⟨v, rfl, hx, heq⟩
      · exact absurd ht (by simp)
    · exact absurd h (by simp)
  · rintro ⟨v, rfl, hd, hr⟩
    simp [Payload.ofJson, Program.lookup, hr, hd]

namespace PayloadEx
/-- A float that may be NaN (`none`), as serde_json writes it: NaN as `null`, which does not read as a float. -/
def float : PayloadType where
  name := "Ratio"
  Val := Option Nat
  ser := fun v => some (match v with
    | some n => .int n
    | none => .null)
  de
    | .int (.ofNat n) => some (some n)
    | _ => none
/-- A text. -/
def text : PayloadType where
  name := "Text"
  Val := String
  ser := fun s => some (.str s)
  de
    | .str s => some s
    | _ => none
/-- A program with both types. -/
def prog : Program where
  Ty := Bool
  decEq := inferInstance
  info := fun b => if b then float else text
  registered := [false, true]
end PayloadEx

/-- **C92 is false of the code** for a payload that JSON does not preserve, such as one with a float that is not a
number: the context is built, but the run panics at its first event. -/
theorem C92_refuted (f : FloatText) : ∃ (g : Program) (p : Payload g), ∀ n, notifyRun f n (some p) = none := by
  refine ⟨PayloadEx.prog, ⟨true, (none : Option Nat)⟩, fun n => ?_⟩
  apply (C92_never_wrong f n _ ?_).1
  have hj : (Payload.mk (g := PayloadEx.prog) true (none : Option Nat)).toJson = some (.obj [("Ratio", .null)]) := rfl
  have hp : parseJson f (printJson f (.obj [("Ratio", .null)])) = some (.obj [("Ratio", .null)]) :=
    parse_print _ (by simp [Fits, FitsFields]) (by decide)
  simp only [Payload.clone, hj, bind, Option.bind_some, hp]
  rfl

/-- Two types with one name. -/
example (f : FloatText) : (Payload.mk (g := { PayloadEx.prog with info := fun _ => PayloadEx.text }) true
    ("x" : String)).clone f = none :=
  ((C92_same_type f _ (.str "x") rfl (by simp [Fits]) (.tail _ (.head _))).2 ⟨false, .head _, Bool.false_ne_true, rfl⟩).1

/-- A payload that survives. -/
example (f : FloatText) : Faithful f (Payload.mk (g := PayloadEx.prog) false ("hello \"x\"" : String)) :=
  ⟨by decide, .str "hello \"x\"", rfl, by simp [Fits], by simp [depth], rfl⟩

end AstroRun
