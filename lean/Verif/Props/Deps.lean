import Verif.Lemmas.Deps
/-!
C40: dependencies of global calls.  C42: inlining.
-/
namespace Nagini.Deps
variable {N : Nat}

/-! ### C40 -/

/-- **C40, full claim**: for every dependency graph the computation ends, and the generated
check passes iff everything the call transitively needs is defined. -/
def DepsChecked : Prop :=
  ∀ (N : Nat) (deps : Fin N → List (Dep N)), RefsConsistent deps → ∀ root : Fin N,
    ∃ n res, addAll deps n root [] [] = some res ∧
      ∀ D defd, Passes res D defd ↔ Required deps root D defd

/-- **C40, divergence**: whenever the callee can reach (by any dependencies) an instance
method that calls itself, directly or through other instance methods, the computation
recurses forever. -/
theorem C40_recursive_methods_diverge (deps : Fin N → List (Dep N)) (hu : RefsConsistent deps)
    (root b : Fin N) (hr : Relation.ReflTransGen (DepEdge deps) root b)
    (hc : Relation.TransGen (CondEdge deps) b b) (n : Nat) : addAll deps n root [] [] = none := by
  cases h : addAll deps n root [] [] with
  | none => rfl
  | some res =>
    obtain ⟨_, _, h3, h4⟩ := addAll_spec hu n root [] [] res h (by intro e he; cases he)
    have hK : K deps res [] := h3 [] (by intro e he; cases he)
    obtain ⟨m, q, hm⟩ := hd_reach hK hr ⟨n, [], h4⟩
    exact (hd_no_cycle m q b hc hm).elim

/-- A function (0) that calls an instance method (1) that calls itself. -/
def selfCall : Fin 2 → List (Dep 2) := fun a => if a = 0 then [⟨0, 1, 0, [7]⟩] else [⟨1, 1, 0, [7]⟩]

/-- C40 is violated: a recursive instance method makes the computation recurse forever. -/
theorem C40_deps_fails : ¬ DepsChecked := by
  intro h
  have hu : RefsConsistent selfCall := by
    intro a b d e hd he hc hc'
    have : ∀ a, ∀ d ∈ selfCall a, d.conds ≠ [] := by decide
    exact absurd hc (this a d hd)
  obtain ⟨n, res, hn, _⟩ := h 2 selfCall hu 0
  have e01 : DepEdge selfCall 0 1 := ⟨⟨0, 1, 0, [7]⟩, by decide, rfl⟩
  have e11 : CondEdge selfCall 1 1 := ⟨⟨1, 1, 0, [7]⟩, by decide, rfl, by decide⟩
  rw [C40_recursive_methods_diverge selfCall hu 0 1 (.single e01) (.single e11) n] at hn
  cases hn

/-- **C40, coverage and precision, proved part**: whenever the computation ends, the generated
check passes iff everything the call transitively needs is defined (whatever names are defined,
whatever classes exist).  Missing: the computation need not end. -/
theorem C40_check_partial (deps : Fin N → List (Dep N)) (hu : RefsConsistent deps)
    (root : Fin N) (n : Nat) (res : List (Dep N)) (h : addAll deps n root [] [] = some res)
    (D : Nat → Prop) (defd : Nat → Nat → Prop) :
    Passes res D defd ↔ Required deps root D defd := by
  constructor
  · intro hp cs d hn hcs
    obtain ⟨_, _, h3, h4⟩ := addAll_spec hu n root [] [] res h (by intro e he; cases he)
    have hK : K deps res [] := h3 [] (by intro e he; cases he)
    exact needs_of_hd hK hp hn n [] h4 (by simp) hcs
  · intro hreq e he hD
    have := addAll_sound (root := root) n root [] [] res h (fun _ _ h => h)
      (by intro e he; cases he) e he
    exact hreq _ { e with conds := [] } this hD

/-- **C40, termination, proved part**: the computation ends if nothing that is reachable
through an instance method call lies on a cycle of dependencies (in particular for programs
whose functions may be recursive but call no methods). -/
theorem C40_terminates_partial (deps : Fin N → List (Dep N)) (root : Fin N)
    (hac : ∀ a b c, Relation.ReflTransGen (DepEdge deps) root a → CondEdge deps a b →
      Relation.ReflTransGen (DepEdge deps) b c → ¬ Relation.TransGen (DepEdge deps) c c) :
    ∃ n res, addAll deps n root [] [] = some res := addAll_terminates root hac

/-- Non-vacuity: mutually recursive functions 0 and 1; 1 also calls an instance method 2 of
class 7, which calls function 3. -/
def mixed : Fin 4 → List (Dep 4) := fun a =>
  if a = 0 then [⟨0, 1, 0, []⟩] else if a = 1 then [⟨1, 0, 0, []⟩, ⟨2, 2, 0, [7]⟩]
  else if a = 2 then [⟨3, 3, 0, []⟩] else []

example : addAll mixed 5 0 [] [] = some [⟨3, 3, 0, [7]⟩, ⟨1, 0, 0, []⟩, ⟨0, 1, 0, []⟩] := by decide

example : RefsConsistent mixed := by
  intro a b d e
  revert a b d e
  have : ∀ a b : Fin 4, ∀ d ∈ mixed a, ∀ e ∈ mixed b, d.conds = [] → e.conds ≠ [] → d.ref ≠ e.ref := by
    decide
  intro a b d e hd he
  exact this a b d hd e he

/-! ### C42 -/

/-- **C42, termination**: inlining ends for every call graph, with a nesting depth of at most
the number of methods plus one. -/
theorem C42_inlining_terminates (body : Fin N → List (Expr N)) (root : Fin N) :
    ∃ res, inlM body (N + 1) [] root = some res := by
  apply inlM_some
  have := Finset.card_filter_le (Finset.univ : Finset (Fin N)) (· ∉ ([] : List (Fin N)))
  simp only [Finset.card_univ, Fintype.card_fin] at this
  exact this

/-- **C42, rejection, exact**: a program is rejected iff a method that calls itself (directly
or indirectly, by statically bound calls) is reachable. -/
theorem C42_rejected_iff (body : Fin N → List (Expr N)) (root : Fin N) (n : Nat)
    (res : Except (Fin N) (List (Fin N))) (h : inlM body n [] root = some res) :
    (∃ m, res = .error m) ↔
    ∃ m, Relation.ReflTransGen (Calls body) root m ∧ Relation.TransGen (Calls body) m m := by
  constructor
  · rintro ⟨m, rfl⟩
    exact ⟨m, inlM_err n [] root m (by simp) h⟩
  · rintro ⟨m, h1, h2⟩
    cases res with
    | error e => exact ⟨e, rfl⟩
    | ok l =>
      obtain ⟨n', st', l', h'⟩ := inlM_reach (n := n) h1 h
      exact absurd h' (inlM_cycle n' st' m l' h2)

/-- **C42, the reported method** is one that calls itself and is reachable. -/
theorem C42_reported (body : Fin N → List (Expr N)) (root m : Fin N) (n : Nat)
    (h : inlM body n [] root = some (.error m)) :
    Relation.ReflTransGen (Calls body) root m ∧ Relation.TransGen (Calls body) m m :=
  inlM_err n [] root m (by simp) h

/-- **C42, nothing skipped**: in an accepted program every method called by the root is
inlined. -/
theorem C42_all_inlined (body : Fin N → List (Expr N)) (root : Fin N) (n : Nat)
    (l : List (Fin N)) (h : inlM body n [] root = some (.ok l)) (b : Fin N)
    (hb : Calls body root b) : b ∈ l := by
  cases n with
  | zero => cases h
  | succ n =>
    rw [inlM] at h
    exact (inlL_ok _ h b hb).2.choose_spec.2

/-- Non-vacuity: `f(f(x))` with `f` calling `g` is accepted, although `f` occurs twice;
recursion is rejected. -/
example : inlM (fun m : Fin 3 => if m = 0 then [.call 1 [.call 1 [.leaf]]] else if m = 1 then [.call 2 []] else [])
    4 [] 0 = some (.ok [1, 2, 1, 2]) ∧
  inlM (fun m : Fin 3 => if m = 0 then [.call 1 [.leaf]] else if m = 1 then [.call 2 []] else [.call 1 []])
    4 [] 0 = some (.error 1) := by decide

end Nagini.Deps
