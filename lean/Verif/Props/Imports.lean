import Verif.Lemmas.Imports
/-!
C38: the modules visible in a module.  C39: execution of global statements.
C53: which module an import statement means.
-/
namespace Nagini.Imports
variable {N : Nat}

/-! ### C38 -/

/-- **C38, full claim**: for every import graph the computation ends, and the result contains
exactly the modules reachable by from-imports. -/
def IncludedExact : Prop :=
  ∀ (N : Nat) (G : Graph N) (a : Fin N), ∃ n l, included G n [] (.orig a) = some l ∧
    ∀ k, k ∈ l.map Obj.mod ↔ Reach G a k

/-- C38 is violated: two modules that import each other with `from ... import *` make the
computation recurse forever. -/
theorem C38_included_fails : ¬ IncludedExact := by
  intro h
  let G : Graph 2 := fun m => [.star (if m = 0 then 1 else 0)]
  obtain ⟨n, l, hl, _⟩ := h 2 G 0
  have e01 : StarEdge G 0 1 := by simp [StarEdge, G]
  have e10 : StarEdge G 1 0 := by simp [StarEdge, G]
  have := included_star_cycle (G := G) n [] (.orig 0) ((Relation.TransGen.single e01).tail e10)
  rw [this] at hl
  cases hl

/-- **C38, termination, exact**: the computation ends iff no module reachable by from-imports
lies on a cycle of `from ... import *` imports (cycles containing a `from ... import names`
are harmless). -/
theorem C38_terminates_iff (G : Graph N) (a : Fin N) :
    (∃ n l, included G n [] (.orig a) = some l) ↔
    ¬ ∃ k, Reach G a k ∧ Relation.TransGen (StarEdge G) k k := by
  constructor
  · rintro ⟨n, l, h⟩ ⟨k, hk, hc⟩
    obtain ⟨p, hp⟩ := Path.of_reach hk
    obtain ⟨s, hs, hn⟩ := hp.simple
    obtain ⟨n', ex', o', l', h1, h2, _⟩ := included_visit h hs hn.of_cons (by
      intro v m _ hm
      rw [List.mem_singleton] at hm
      cases hm)
    rw [included_star_cycle n' ex' o' (h2 ▸ hc)] at h1
    cases h1
  · exact included_terminates

/-- **C38, contents**: whenever the computation ends, the result contains exactly the modules
reachable by from-imports. -/
theorem C38_contents_partial (G : Graph N) (a : Fin N) (n : Nat) (l : List (Obj N))
    (h : included G n [] (.orig a) = some l) (k : Fin N) :
    k ∈ l.map Obj.mod ↔ Reach G a k := by
  constructor
  · intro hk
    obtain ⟨o, ho, rfl⟩ := List.mem_map.1 hk
    exact included_sound h o ho
  · intro hk
    obtain ⟨p, hp⟩ := Path.of_reach hk
    obtain ⟨s, hs, hn⟩ := hp.simple
    obtain ⟨n', ex', o', l', h1, h2, h3, _⟩ := included_visit h hs hn.of_cons (by
      intro v m _ hm
      rw [List.mem_singleton] at hm
      cases hm)
    exact List.mem_map.2 ⟨o', h3 (included_head h1), h2⟩

/-- Non-vacuity: a cyclic graph (0 imports names of 1, 1 imports all of 2 and names of 0) on
which the computation ends; module 1 and 2 occur once per path. -/
example : included (fun m : Fin 3 => if m = 0 then [.view 0 1] else if m = 1 then [.star 2, .view 1 0] else [])
      5 [] (.orig 0) = some [.orig 0, .copy 0 1, .orig 2, .copy 1 0] := by decide

/-! ### C39 -/

/-- **C39, full claim**: the encoded execution of the program has the observable effects of
Python's execution: same outcome, same effects in the same order. -/
def GlobalsAsPython : Prop :=
  ∀ (N : Nat) (P : Fin N → List (Stmt N)) (main : Fin N) (n : Nat) (code : List (TStmt N)),
    trModule P n [] main = some code →
    ∀ o, Py P main .script initP (P main) o → (execList (initT main) code).obs = o.obs

/-- Witness: the script (file 0) prints and imports file 1, which imports file 0. -/
def cyc : Fin 2 → List (Stmt 2) :=
  fun m => if m = 0 then [.act 7, .imp 1 .none] else [.imp 0 .none]

/-- C39 is violated: when a module imports the file that was started as a script, Python
executes that file a second time (as a module of its own), the encoding does not. -/
theorem C39_globals_fails : ¬ GlobalsAsPython := by
  intro h
  have hpy : Py cyc 0 .script initP (cyc 0)
      (.ok ⟨fun i => i = .mod 0 ∨ i = .mod 1 ∨ i = .script, fun _ _ => false, [(0, 7), (0, 7)]⟩) := by
    apply Py.act
    refine Py.load (by simp [initP, St.emit]) ?_ (by rw [pyBind]) .nil
    refine Py.load (by simp [initP, St.emit, St.load]) ?_ (by rw [pyBind]) .nil
    apply Py.act
    refine Py.cached (by simp [initP, St.emit, St.load]) (by rw [pyBind]) ?_
    have : (St.emit (St.load (St.load (St.emit initP (Inst.file 0 Inst.script) 7) (.mod 1)) (.mod 0))
        (Inst.file 0 (.mod 0)) 7 : St (Inst 2) 2) =
        ⟨fun i => i = .mod 0 ∨ i = .mod 1 ∨ i = .script, fun _ _ => false, [(0, 7), (0, 7)]⟩ := by
      simp only [St.emit, St.load, initP, Inst.file, St.mk.injEq]
      refine ⟨?_, trivial, rfl⟩
      funext i
      by_cases h1 : i = .mod 0 <;> by_cases h2 : i = .mod 1 <;> simp [h1, h2]
    rw [this]
    exact .nil
  have := h 2 cyc 0 3 _ rfl _ hpy
  revert this
  decide

/-- **C39, refinement, proved part**: if no module imports the file started as a script, the
encoded execution has exactly the outcome and the effects, in the same order, of Python's
execution, for every import graph (cyclic ones included); failing name checks are exactly
Python's `NameError`/`ImportError`.  Missing: modules importing the script, where the claim is
false. -/
theorem C39_globals_partial (P : Fin N → List (Stmt N)) (main : Fin N)
    (hmain : ∀ m, ¬ imports main (P m)) (n : Nat) (code : List (TStmt N))
    (hc : trModule P n [] main = some code) (o : Out (Inst N) N) :
    Py P main .script initP (P main) o → (execList (initT main) code).obs = o.obs := by
  intro ho
  have hr : Rel main (initP : St (Inst N) N) (initT main) :=
    ⟨by intro m; simp [initP, initT, inst], fun _ _ => rfl, rfl⟩
  have h := module_rel hmain n [] main code hc initP (initT main) hr (by simp [initT])
  rw [show inst main main = .script by simp [inst]] at h
  cases he : execList (initT main) code with
  | ok τ' =>
    rw [he] at h
    obtain ⟨_, σ', hp, hr'⟩ := h
    rw [← py_det hp ho]
    simp [Out.obs, hr'.trace]
  | fail t =>
    rw [he] at h
    rw [← py_det h ho]
    rfl

/-- Python's execution exists in the situation of `C39_globals_partial` (so that theorem is not
about nothing), and it is unique. -/
theorem C39_python_total (P : Fin N → List (Stmt N)) (main : Fin N)
    (hmain : ∀ m, ¬ imports main (P m)) :
    ∃ o, Py P main .script initP (P main) o ∧ ∀ o', Py P main .script initP (P main) o' → o = o' := by
  obtain ⟨code, hc⟩ := trModule_some P (unseen ([] : List (Fin N))) [] main (Nat.le_refl _)
  have hr : Rel main (initP : St (Inst N) N) (initT main) :=
    ⟨by intro m; simp [initP, initT, inst], fun _ _ => rfl, rfl⟩
  have h := module_rel hmain _ [] main code hc initP (initT main) hr (by simp [initT])
  rw [show inst main main = .script by simp [inst]] at h
  cases he : execList (initT main) code with
  | ok τ' =>
    rw [he] at h
    obtain ⟨_, σ', hp, _⟩ := h
    exact ⟨_, hp, fun o' h' => py_det hp h'⟩
  | fail t =>
    rw [he] at h
    exact ⟨_, h, fun o' h' => py_det h h'⟩

/-- **C39, the translation ends** for every import graph, within as many nested imports as
there are modules. -/
theorem C39_translation_terminates (P : Fin N → List (Stmt N)) (main : Fin N) :
    ∃ code, trModule P (N + 1) [] main = some code := by
  apply trModule_some
  have := Finset.card_filter_le (Finset.univ : Finset (Fin N)) (· ∉ ([] : List (Fin N)))
  simp only [Finset.card_univ, Fintype.card_fin] at this
  exact this

/-- **C39, at most once**: in every encoded execution, failing or not, with any imports, the
effects coming from a file are an initial part of the effects in its text, each once and in
order. -/
theorem C39_at_most_once (P : Fin N → List (Stmt N)) (main : Fin N) (n : Nat)
    (code : List (TStmt N)) (hc : trModule P n [] main = some code) (m : Fin N) :
    part m (execList (initT main) code).obs.2 <+: acts (P m) := by
  have hcl : Clean (initT main) := fun _ _ => rfl
  have h := module_eff n [] main code hc (initT main) hcl (by simp [initT])
  have hmain : part main (initT main).trace = [] := rfl
  have hl : ∀ k, k ≠ main → (initT main).loaded k = false := by
    intro k hk; simp [initT, hk]
  cases he : execList (initT main) code with
  | ok τ' =>
    rw [he] at h
    obtain ⟨a1, a2, a3, a4, a5⟩ := h
    simp only [Out.obs]
    by_cases hm : m = main
    · subst hm; rw [a1, hmain]; exact List.prefix_rfl
    · cases h3 : τ'.loaded m with
      | true => rw [a4 m (hl m hm) h3]
      | false => rw [a5 m h3]; exact List.nil_prefix
  | fail t =>
    rw [he] at h
    obtain ⟨⟨p, a0, a1⟩, a2, a3⟩ := h
    simp only [Out.obs]
    by_cases hm : m = main
    · subst hm; rw [a1, hmain]; simpa using a0
    · exact a3 m (hl m hm)

/-- Non-vacuity: a diamond with a cycle; 3 is executed once, 1's name is imported by 0. -/
def diamond : Fin 4 → List (Stmt 4) := fun m =>
  if m = 0 then [.imp 1 (.names [(5, 6)]), .imp 2 .all, .use 6, .act 0]
  else if m = 1 then [.define 5, .imp 3 .none, .act 1]
  else if m = 2 then [.imp 1 .none, .imp 3 .none, .act 2]
  else [.act 3, .imp 1 .none]

example : (∀ m, ¬ imports 0 (diamond m)) ∧ ∃ code, trModule diamond 5 [] 0 = some code ∧
    (execList (initT 0) code).obs = (true, [(3, 3), (1, 1), (2, 2), (0, 0)]) := by
  refine ⟨?_, _, rfl, by decide⟩
  rintro m ⟨b, hb⟩
  revert hb
  unfold diamond
  split
  · simp
  · split
    · simp
    · split <;> simp

/-! ### C53 -/

/-- **C53, full claim**: a from-import statement naming a module `name` that is among the
from-imports of the current module is taken to mean that module. -/
def ResolveRight : Prop :=
  ∀ (imps : List ModInfo) (name : List Char) (e : ModInfo), e ∈ imps → e.typePrefix = name →
    ∃ r, resolve imps name = some r ∧ r.typePrefix = name

/-- C53 is violated: after `from ab import x`, the statement `from a import y` is taken to
mean module `ab`. -/
theorem C53_resolve_fails : ¬ ResolveRight := by
  intro h
  obtain ⟨r, h1, h2⟩ := h
    [⟨['a', 'b'], ['a', 'b', '.', 'p', 'y']⟩, ⟨['a'], ['a', '.', 'p', 'y']⟩] ['a']
    ⟨['a'], ['a', '.', 'p', 'y']⟩ (by decide) rfl
  have : resolve [⟨['a', 'b'], ['a', 'b', '.', 'p', 'y']⟩, ⟨['a'], ['a', '.', 'p', 'y']⟩] ['a'] =
      some ⟨['a', 'b'], ['a', 'b', '.', 'p', 'y']⟩ := by decide
  rw [this] at h1
  cases h1
  revert h2
  decide

/-- **C53, exact proved part**: let `e` be the first from-import of the module with the given
name.  The statement is taken to mean that module iff no from-import before it has a file name
starting with the name. -/
theorem C53_resolve_iff_partial (pre post : List ModInfo) (e : ModInfo) (name : List Char)
    (he : e.typePrefix = name) (hpre : ∀ p ∈ pre, p.typePrefix ≠ name) :
    (∃ r, resolve (pre ++ e :: post) name = some r ∧ r.typePrefix = name) ↔
    ∀ p ∈ pre, ¬ name <+: p.file := by
  have hb : ∀ p ∈ pre, (p.typePrefix == name || name.isPrefixOf p.file) = true ↔ name <+: p.file := by
    intro p hp
    simp [hpre p hp]
  constructor
  · rintro ⟨r, h1, h2⟩ p hp hpf
    unfold resolve at h1
    rw [List.find?_append] at h1
    cases hf : pre.find? (fun i => i.typePrefix == name || name.isPrefixOf i.file) with
    | none =>
      have := List.find?_eq_none.1 hf p hp
      exact this ((hb p hp).2 hpf)
    | some q =>
      rw [hf] at h1
      simp at h1
      subst h1
      exact hpre _ (List.mem_of_find?_eq_some hf) h2
  · intro h
    refine ⟨e, ?_, he⟩
    unfold resolve
    rw [List.find?_append]
    have : pre.find? (fun i => i.typePrefix == name || name.isPrefixOf i.file) = none := by
      rw [List.find?_eq_none]
      intro p hp hc
      exact h p hp ((hb p hp).1 hc)
    rw [this]
    simp [he]

/-- Non-vacuity: importing `b` after `a`. -/
example : (∀ p ∈ [(⟨['a'], ['a', '.', 'p', 'y']⟩ : ModInfo)], p.typePrefix ≠ ['b']) ∧
    ∀ p ∈ [(⟨['a'], ['a', '.', 'p', 'y']⟩ : ModInfo)], ¬ ['b'] <+: p.file := by decide

end Nagini.Imports
