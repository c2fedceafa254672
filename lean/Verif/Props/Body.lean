import Verif.Lemmas.Body
/-!
C41: splitting a body into contract and code.
-/
namespace Nagini.Body

/-- **C41, full claim**: every statement outside of the window that is translated as code is a
contract statement, a docstring or a global declaration. -/
def NothingDropped : Prop :=
  ∀ (ss : List Stmt) (a b : Nat), bodyIndices ss = some (a, b) →
    a ≤ b ∧ b ≤ ss.length ∧
    ∀ (i : Nat) (s : Stmt), ss[i]? = some s → (i < a ∨ b ≤ i) → Genuine s

/-- C41 is violated: a method call `x.Ensures(...)` at the end of a body is dropped. -/
theorem C41_body_fails : ¬ NothingDropped := by
  intro h
  have := (h [.other 0, .call (.attr .ensures)] 0 1 (by decide)).2.2 1 (.call (.attr .ensures)) rfl
    (.inr (Nat.le_refl _))
  exact this

/-- **C41, the window** is always a proper interval of the body, for every body. -/
theorem C41_window (ss : List Stmt) (a b : Nat) (h : bodyIndices ss = some (a, b)) :
    a ≤ b ∧ b ≤ ss.length := indices_le h

/-- **C41, proved part**: if no call outside of the contract functions has the name of one (a
method named `Ensures`, `Requires`, ... or a call of the result of a contract function), every
statement outside of the window is a contract statement, a docstring or a global declaration.
Missing: bodies with such calls, where the claim is false. -/
theorem C41_body_partial (ss : List Stmt) (hd : ∀ s ∈ ss, Disguised s = false) (a b : Nat)
    (h : bodyIndices ss = some (a, b)) :
    a ≤ b ∧ b ≤ ss.length ∧
    ∀ (i : Nat) (s : Stmt), ss[i]? = some s → (i < a ∨ b ≤ i) → Genuine s := by
  refine ⟨(indices_le h).1, (indices_le h).2, fun i s hs hi => ?_⟩
  obtain ⟨p, hp, h1⟩ := indices_outside h i hi s hs
  exact genuine_of_order (hd s (List.mem_of_getElem? hs)) hp h1

/-- **C41, canonical bodies**: if the body consists of docstrings, global declarations,
IO existentials, invariants, preconditions, measures, postconditions, exceptional
postconditions (in this order, each any number of times), code whose first statement is not
contract-like and whose last statement is not a postcondition, and final postconditions, then
the window is exactly the code. -/
theorem C41_canonical (nd ng ni niv npr ndc npo nex npo' : Nat) (first : Stmt) (code : List Stmt)
    (hfirst : ∀ p ∈ order, p first = some false)
    (hlast : ∀ s, (first :: code).getLast? = some s → isNamed .ensures s = some false) :
    let contract := List.replicate nd .str ++ List.replicate ng .glob ++
      List.replicate ni (.call (.call (.name .ioExists))) ++
      List.replicate niv (.call (.name .invariant)) ++ List.replicate npr (.call (.name .requires)) ++
      List.replicate ndc (.call (.name .decreases)) ++ List.replicate npo (.call (.name .ensures)) ++
      List.replicate nex (.call (.name .exsures))
    bodyIndices (contract ++ (first :: code) ++ List.replicate npo' (.call (.name .ensures))) =
      some (contract.length, contract.length + (first :: code).length) := by
  intro contract
  have hflat : contract = [List.replicate nd Stmt.str, List.replicate ng .glob,
      List.replicate ni (.call (.call (.name .ioExists))),
      List.replicate niv (.call (.name .invariant)), List.replicate npr (.call (.name .requires)),
      List.replicate ndc (.call (.name .decreases)), List.replicate npo (.call (.name .ensures)),
      List.replicate nex (.call (.name .exsures))].flatten := by
    simp [contract, List.append_assoc]
  have hph : phases order (contract ++ ((first :: code) ++ List.replicate npo' (.call (.name .ensures)))) =
      some contract.length := by
    rw [hflat]
    apply phases_canonical
    · rfl
    · intro i p b hp hb s hs
      rcases i with _ | _ | _ | _ | _ | _ | _ | _ | i <;>
        simp only [order, List.getElem?_cons_zero, List.getElem?_cons_succ, Option.some.injEq,
          List.getElem?_nil, reduceCtorEq] at hp hb <;> subst hp hb <;>
        (rw [List.eq_of_mem_replicate hs]; decide)
    · intro i j p b hij hp hb s hs
      rcases j with _ | _ | _ | _ | _ | _ | _ | _ | j <;>
        simp only [List.getElem?_cons_zero, List.getElem?_cons_succ, Option.some.injEq,
          List.getElem?_nil, reduceCtorEq] at hb <;> subst hb <;>
        rw [List.eq_of_mem_replicate hs] <;>
        rcases i with _ | _ | _ | _ | _ | _ | _ | _ | i <;>
        simp only [order, List.getElem?_cons_zero, List.getElem?_cons_succ, Option.some.injEq,
          List.getElem?_nil, reduceCtorEq] at hp <;>
        first | (exfalso; omega) | (subst hp; decide)
    · intro p hp s hs
      simp only [List.cons_append, List.head?_cons, Option.some.injEq] at hs
      rw [← hs]
      exact hfirst p hp
  clear hflat
  clear_value contract
  unfold bodyIndices
  rw [List.append_assoc, hph]
  simp only []
  rw [if_pos (by simp)]
  have hpost : ∀ s ∈ List.replicate npo' (Stmt.call (.name .ensures)),
      isNamed .ensures s = some true := fun s hs => by
    rw [List.eq_of_mem_replicate hs]; decide
  rw [List.reverse_append, List.reverse_append, List.reverse_replicate, List.append_assoc,
    lead_append hpost]
  have h0 : lead (isNamed .ensures) ((first :: code).reverse ++ contract.reverse) = some 0 := by
    cases hr : (first :: code).reverse with
    | nil => simp at hr
    | cons x t =>
      rw [List.cons_append]
      apply lead_cons_false
      apply hlast
      rw [← List.head?_reverse, hr]
      rfl
  rw [h0]
  simp
  omega

/-- Non-vacuity. -/
example : (∀ p ∈ order, p (.other 3) = some false) ∧
    (∀ s ∈ [Stmt.str, .call (.name .requires), .other 1, .call (.attr (.user 3)), .call (.name .ensures)],
      Disguised s = false) ∧
    bodyIndices [.str, .call (.name .requires), .other 1, .call (.attr (.user 3)), .call (.name .ensures)] =
      some (2, 4) := by decide

end Nagini.Body
