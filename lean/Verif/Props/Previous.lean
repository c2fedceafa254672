import Verif.Model.Previous

/-!
C154: `Previous(x)` contains the values of `x` in the previous iterations.
-/
namespace Nagini.Previous

/-- The full claim: if `Previous(x)` is accepted, it contains the values that `x` had in the previous iterations of the
innermost loop that assigns `x`. -/
def C154_previous : Prop :=
  ∀ (x : String) (loops : List Loop) (vs : List V), translate x loops = some vs →
    previous x loops = some (vs.map some)

theorem refersTo_binds {x : String} {t : Target} (h : refersTo x t = true) : t.binds x = true := by
  unfold refersTo at h
  split at h
  · simp_all [Target.binds]
  · simp_all [Target.binds]
  · cases h

/-- Proved part: the claim holds if the innermost loop that assigns `x` has no other target; then all uses are accepted. -/
theorem C154_partial (x : String) (inner : List Loop) (done : List V) (outer : List Loop)
    (hi : ∀ l ∈ inner, l.target.binds x = false) :
    translate x (inner ++ ⟨.name x, done⟩ :: outer) = some done ∧
      previous x (inner ++ ⟨.name x, done⟩ :: outer) = some (done.map some) := by
  induction inner with
  | nil => simp [translate, findLoop, refersTo, previous, Target.binds, Target.value]
  | cons l ls ih =>
    have ih := ih (fun l' h => hi l' (List.mem_cons_of_mem _ h))
    have hl := hi l (List.mem_cons_self ..)
    have hr : refersTo x l.target = false := by
      cases h : refersTo x l.target with
      | false => rfl
      | true => rw [refersTo_binds h] at hl; cases hl
    refine ⟨?_, ?_⟩
    · have := ih.1
      simpa [translate, findLoop, hr] using this
    · simpa [previous, hl] using ih.2

/-- Outside of loops that assign the variable, `Previous` is rejected. -/
theorem C154_rejected (x : String) (loops : List Loop) (h : previous x loops = none) : translate x loops = none := by
  induction loops with
  | nil => rfl
  | cons l ls ih =>
    rw [previous] at h
    split at h
    · cases h
    · rename_i hb
      have hr : refersTo x l.target = false := by
        cases hr : refersTo x l.target with
        | false => rfl
        | true => exact absurd (refersTo_binds hr) hb
      have := ih h
      simpa [translate, findLoop, hr] using this

/-! ### Where the code violates the claim -/

theorem cons_ne (a b : V) : V.cons a b ≠ a := by
  intro h
  have := congrArg sizeOf h
  simp at this
  omega

/-- If `x` is the first of several targets, `Previous(x)` contains the tuples instead of the values of `x`. -/
theorem C154_tuple (x : String) (b : Target) (done : List V) (outer : List Loop) (hb : b.binds x = false)
    (hd : ∃ v w rest, done = .cons v w :: rest) :
    translate x (⟨.cons (.name x) b, done⟩ :: outer) = some done ∧
      previous x (⟨.cons (.name x) b, done⟩ :: outer) ≠ some (done.map some) := by
  obtain ⟨v, w, rest, rfl⟩ := hd
  refine ⟨by simp [translate, findLoop, refersTo], ?_⟩
  have hv : ∀ (t : Target) (u : V), t.binds x = false → t.value x u = none := by
    intro t
    induction t with
    | name y => intro u h; simp_all [Target.binds, Target.value]
    | other => intro u _; simp [Target.value]
    | nil => intro u _; simp [Target.value]
    | cons a b iha ihb =>
      intro u h
      simp only [Target.binds, Bool.or_eq_false_iff] at h
      cases u with
      | cons u u' => simp [Target.value, iha u h.1, ihb u' h.2]
      | _ => simp [Target.value]
  simp only [previous, Target.binds, beq_self_eq_true, Bool.true_or, ↓reduceIte, List.map_cons, Target.value, hv b w hb,
    Option.none_or, ne_eq, Option.some.injEq, List.cons.injEq, not_and]
  intro h
  exact absurd h.symm (cons_ne v w)

/-- The sequence has the type of `x` as type argument, so the contract of `PSeq___getitem__` (resources/seq.sil:23-29)
contradicts the types of the tuples: everything can be proved about the loop. -/
theorem C154_contradiction {Ty : Type} (has : V → Ty → Prop) (getitem : List V → Ty → Nat → V) (typeOfX : Ty)
    (x : String) (b : Target) (done vs : List V) (outer : List Loop) (hd : done ≠ [])
    (hty : ∀ v ∈ done, ¬ has v typeOfX)
    (hs : translate x (⟨.cons (.name x) b, done⟩ :: outer) = some vs)
    (contract : ∀ i (h : i < vs.length), getitem vs typeOfX i = vs[i] ∧ has (getitem vs typeOfX i) typeOfX) : False := by
  simp only [translate, findLoop, refersTo, beq_self_eq_true, ↓reduceIte, Option.map_some, Option.some.injEq] at hs
  subst hs
  have hl : 0 < done.length := List.length_pos_iff.2 hd
  obtain ⟨h1, h2⟩ := contract 0 hl
  rw [h1] at h2
  exact hty _ (List.getElem_mem hl) h2

/-- `for y in ..: for x, y in ..: Invariant(.. Previous(y) ..)` refers to the outer loop. -/
theorem C154_second_fails :
    let inner : Loop := ⟨.cons (.name "x") (.cons (.name "y") .nil), []⟩
    let outer : Loop := ⟨.name "y", [.atom 1]⟩
    translate "y" [inner, outer] = some [.atom 1] ∧ previous "y" [inner, outer] = some [] := by
  simp [translate, findLoop, refersTo, previous, Target.binds]

/-- The claim does not hold. -/
theorem C154_fails : ¬ C154_previous := by
  intro h
  obtain ⟨h1, h2⟩ := C154_tuple "x" .nil [.cons (.atom 1) .nil] [] rfl ⟨_, _, _, rfl⟩
  exact h2 (h _ _ _ h1)

/-! ### Examples -/

/-- `for x in ..: for y, z in ..: Invariant(.. Previous(x) ..)`. -/
example : (∀ l ∈ [(⟨.cons (.name "y") (.cons (.name "z") .nil), []⟩ : Loop)], l.target.binds "x" = false) ∧
    translate "x" [⟨.cons (.name "y") (.cons (.name "z") .nil), []⟩, ⟨.name "x", [.atom 3, .atom 4]⟩] =
      some [.atom 3, .atom 4] := by
  refine ⟨?_, by simp [translate, findLoop, refersTo]⟩
  intro l hl
  simp only [List.mem_cons, List.not_mem_nil, or_false] at hl
  subst hl
  decide

/-- `x` is a number (an atom), and the elements are pairs. -/
example : let done : List V := [.cons (.atom 1) (.cons (.atom 2) .nil)]
    done ≠ [] ∧ (∀ v ∈ done, ¬ (fun v (_ : Unit) => ∃ n, v = V.atom n) v ()) ∧
      translate "x" [⟨.cons (.name "x") (.cons (.name "y") .nil), done⟩] = some done := by
  simp [translate, findLoop, refersTo]

example : previous "x" [⟨.name "y", []⟩] = none := by decide

end Nagini.Previous
