import Verif.Lemmas.Packages

/-!
C147: dotted names refer to the modules that were imported under them.
C148: relative imports import the module that Python imports.
C149: importing a module executes its packages.
-/
namespace Nagini.Packages

/-! ### C147 -/

/-- The full claim: every import is found under its name. -/
def C147_namespaces : Prop :=
  ∀ is : List Import, Consistent is → ∀ i ∈ is, lookup (run is) (.file i.into) i.name = some (.file i.file)

/-- `Step i k x t`: the import `i` needs `x` in the namespace of `k` to be `t`. -/
inductive Step (i : Import) : Option Nat → Nat → Option Nat → Prop where
  /-- The name is not dotted: in the importing module, `x` is the imported module. -/
  | single {x} : i.name = [x] → Step i none x none
  /-- In the importing module, `x` is a directory. -/
  | first {x y p} : i.name = x :: y :: p → Step i none x (some x)
  /-- In the directory `d`, `x` is the imported module. -/
  | last {q d x} : i.name = q ++ [d, x] → Step i (some d) x none
  /-- In the directory `d`, `x` is a directory. -/
  | inner {q d x y r} : i.name = q ++ d :: x :: y :: r → Step i (some d) x (some x)

/-- Two imports do not need different things: where `none` is the importing module on the left, and the imported module on the
right. -/
def Agree (i j : Import) : Prop :=
  ∀ k x t t', Step i k x t → Step j k x t' → (k = none → i.into = j.into) →
    t = t' ∧ (t = none → i.file = j.file)

theorem edges_step (i : Import) : ∀ (p q : Path) (k k' : Key) (x : Nat) (t : Key), i.name = q ++ p →
    (q = [] ∧ k = .file i.into ∨ ∃ q' d, q = q' ++ [d] ∧ k = .dir d) → ((k', x), t) ∈ edges k p i.file →
      ∃ s u, Step i s x u ∧ k' = (match s with | none => .file i.into | some d => .dir d) ∧
        t = (match u with | none => .file i.file | some d => .dir d)
  | [], _, _, _, _, _, _, _, h => by simp [edges] at h
  | [z], q, k, k', x, t, hn, hk, h => by
    simp only [edges, List.mem_singleton, Prod.mk.injEq] at h
    obtain ⟨⟨rfl, rfl⟩, rfl⟩ := h
    rcases hk with ⟨rfl, hk⟩ | ⟨q', d, rfl, hk⟩
    · exact ⟨none, none, .single (by simpa using hn), hk, rfl⟩
    · exact ⟨some d, none, .last (q := q') (by simpa using hn), hk, rfl⟩
  | z :: y :: p, q, k, k', x, t, hn, hk, h => by
    simp only [edges, List.mem_cons, Prod.mk.injEq] at h
    rcases h with ⟨⟨rfl, rfl⟩, rfl⟩ | h
    · rcases hk with ⟨rfl, hk⟩ | ⟨q', d, rfl, hk⟩
      · exact ⟨none, some _, .first (by simpa using hn), hk, rfl⟩
      · exact ⟨some d, some _, .inner (q := q') (by simpa using hn), hk, rfl⟩
    · exact edges_step i (y :: p) (q ++ [z]) _ _ _ _ (by simpa using hn) (.inr ⟨q, z, rfl, rfl⟩) h

/-- Proved part: every import is found if no two imports of the program (in whatever modules) need different things. -/
theorem C147_partial (is : List Import) (hc : Consistent is) (ha : ∀ i ∈ is, ∀ j ∈ is, Agree i j) :
    ∀ i ∈ is, lookup (run is) (.file i.into) i.name = some (.file i.file) := by
  have hf : Functional (run is) := by
    intro s t t' h h'
    obtain ⟨i, hi, h⟩ := (run_mem is _).1 h
    obtain ⟨j, hj, h'⟩ := (run_mem is _).1 h'
    obtain ⟨k, x⟩ := s
    obtain ⟨a, b, h1, h2, h3⟩ := edges_step i i.name [] _ _ _ _ rfl (.inl ⟨rfl, rfl⟩) h
    obtain ⟨a', b', h1', h2', h3'⟩ := edges_step j j.name [] _ _ _ _ rfl (.inl ⟨rfl, rfl⟩) h'
    rw [h2] at h2'
    have e : a = a' ∧ (a = none → i.into = j.into) := by
      cases a <;> cases a' <;> simp_all
    obtain ⟨rfl, e⟩ := e
    obtain ⟨rfl, e2⟩ := ha i hi j hj _ _ _ _ h1 h1' e
    rw [h3, h3']
    cases b with
    | none => simp [e2 rfl]
    | some d => rfl
  intro i hi
  exact lookup_edges hf i.file i.name _ (hc.1 i hi) fun e he => (run_mem is e).2 ⟨i, hi, he⟩

/-- In particular if imports whose names have the same last part import the same module, and no last part is the name of a
package in another name. -/
theorem C147_distinct (is : List Import) (hc : Consistent is)
    (h1 : ∀ i ∈ is, ∀ j ∈ is, i.name.getLast? = j.name.getLast? → i.file = j.file)
    (h2 : ∀ i ∈ is, ∀ j ∈ is, ∀ x ∈ j.name.dropLast, i.name.getLast? ≠ some x) :
    ∀ i ∈ is, lookup (run is) (.file i.into) i.name = some (.file i.file) := by
  have hs : ∀ {i : Import} {k x t}, Step i k x t →
      (t = none ∧ ∃ q, i.name = q ++ [x]) ∨ (t = some x ∧ ∃ q y r, i.name = q ++ x :: y :: r) := by
    intro i k x t h
    cases h with
    | single h => exact .inl ⟨rfl, [], by simpa using h⟩
    | first h => exact .inr ⟨rfl, [], _, _, by simpa using h⟩
    | @last q d _ h => exact .inl ⟨rfl, q ++ [d], by simpa using h⟩
    | @inner q d _ y r h => exact .inr ⟨rfl, q ++ [d], y, r, by simpa using h⟩
  refine C147_partial is hc fun i hi j hj k x t t' hi' hj' _ => ?_
  rcases hs hi' with ⟨rfl, q, e⟩ | ⟨rfl, q, y, r, e⟩ <;> rcases hs hj' with ⟨rfl, q', e'⟩ | ⟨rfl, q', y', r', e'⟩
  · exact ⟨rfl, fun _ => h1 i hi j hj (by simp [e, e'])⟩
  · exact absurd (by simp [e]) (h2 i hi j hj x (by simp [e']))
  · exact absurd (by simp [e']) (h2 j hj i hi x (by simp [e]))
  · exact ⟨rfl, fun h => by cases h⟩

/-- Module 0: `import b.x` and `import a.b.x`, with `a`, `b`, `x` = 1, 2, 3. -/
def twoDirs : List Import := [⟨0, [2, 3], 10⟩, ⟨0, [1, 2, 3], 11⟩]

/-- Directories with the same name are the same module: after `import b.x` and `import a.b.x`, `b.x` refers to the module
`a.b.x`.  The functions of the wrong module are called, and the statements of `b.x` are never verified. -/
theorem C147_fails : ¬ C147_namespaces := by
  intro h
  have := h twoDirs ⟨by decide, by decide⟩ ⟨0, [2, 3], 10⟩ (by simp [twoDirs])
  revert this
  decide

example : lookup (run twoDirs) (.file 0) [2, 3] = some (.file 11) := by decide

/-- The two imports may be in different modules: module 0 imports `b.x`, module 10 imports `a.b.x`. -/
theorem C147_other_module : ∃ is : List Import, Consistent is ∧ (∀ i ∈ is, ∀ j ∈ is, i.into = j.into → i.name = j.name) ∧
    lookup (run is) (.file 0) [2, 3] = some (.file 11) ∧ (⟨0, [2, 3], 10⟩ : Import) ∈ is :=
  ⟨[⟨0, [2, 3], 10⟩, ⟨10, [1, 2, 3], 11⟩], ⟨by decide, by decide⟩, by decide, by decide, by simp⟩

/-- `import a.b` and then `import a`: `a.b` is not found any more, and nagini fails with an exception. -/
theorem C147_package_crashes : ∃ is : List Import, Consistent is ∧ ∃ i ∈ is, lookup (run is) (.file i.into) i.name = none :=
  ⟨[⟨0, [1, 2], 10⟩, ⟨0, [1], 11⟩], ⟨by decide, by decide⟩, ⟨0, [1, 2], 10⟩, by simp, by decide⟩

/-! ### C148 -/

/-- The full claim: relative imports import the module that Python imports. -/
def C148_relative : Prop :=
  ∀ (files : Path → Option Nat) (main : Nat) (cur : Path) (pkg : Bool) (level : Nat) (name r : Path) (f : Nat),
    pythonName cur pkg level name = some r → files r = some f → importFile files main cur level name = f

/-- If Python finds a module, nagini uses the same name exactly if the import is absolute or the importing module is not a
package. -/
theorem C148_exact (cur : Path) (pkg : Bool) (level : Nat) (name r : Path)
    (h : pythonName cur pkg level name = some r) :
    relName cur level name = r ↔ level = 0 ∨ pkg = false := by
  unfold pythonName at h
  unfold relName
  by_cases hl : level = 0
  · simp only [hl, if_true, Option.some.injEq] at h ⊢
    simp [h]
  · simp only [hl, if_false, false_or] at h ⊢
    cases pkg with
    | false =>
      simp only [Bool.false_eq_true, if_false, List.length_dropLast, Option.ite_none_left_eq_some, Option.some.injEq,
        iff_true] at h ⊢
      obtain ⟨h1, rfl⟩ := h
      have e : cur.length - 1 + 1 - level = cur.length - level := by omega
      rw [e, List.dropLast_eq_take, List.take_take]
      congr 2
      omega
    | true =>
      simp only [if_true, Option.ite_none_left_eq_some, Option.some.injEq, Bool.true_eq_false, iff_false] at h ⊢
      obtain ⟨h1, rfl⟩ := h
      intro e
      have := congrArg List.length e
      simp only [List.length_append, List.length_take] at this
      omega

/-- Proved part: it holds for modules that are not packages. -/
theorem C148_partial (files : Path → Option Nat) (main : Nat) (cur : Path) (level : Nat) (name r : Path) (f : Nat)
    (h : pythonName cur false level name = some r) (hf : files r = some f) :
    importFile files main cur level name = f := by
  unfold importFile
  rw [(C148_exact cur false level name r h).2 (.inr rfl), hf]
  rfl

/-- In a package, `n` dots are what `n + 1` dots are in Python. -/
theorem C148_package (cur : Path) (level : Nat) (name r : Path) (hl : level ≠ 0)
    (h : pythonName cur true (level + 1) name = some r) : relName cur level name = r := by
  simp only [pythonName, if_true, Nat.add_eq_zero_iff, Nat.succ_ne_self, and_false, if_false,
    Option.ite_none_left_eq_some, Option.some.injEq] at h
  obtain ⟨_, rfl⟩ := h
  simp only [relName, hl, if_false]
  congr 2
  omega

/-- `from .m import f` in `p/__init__.py` with the main file 0: nagini imports the main file again (or the top-level module `m`
if there is one). -/
theorem C148_fails : ¬ C148_relative := by
  intro h
  have := h (fun p => if p = [1, 2] then some 10 else none) 0 [1] true 1 [2] [1, 2] 10 (by decide) (by decide)
  revert this
  decide

example : importFile (fun p => if p = [1, 2] then some 10 else if p = [2] then some 11 else none) 0 [1] 1 [2] = 11 := by decide

/-- `from ..m import f` in `p.q.r` imports `p.m`. -/
example : pythonName [1, 2, 3] false 2 [4] = some [1, 4] ∧ relName [1, 2, 3] 2 [4] = [1, 4] := by decide
example : pythonName [1, 2] true 2 [4] = some [1, 4] ∧ relName [1, 2] 1 [4] = [1, 4] := by decide

/-! ### C149 -/

/-- The full claim: the files that are executed for an import are those that Python executes. -/
def C149_packages : Prop :=
  ∀ (files : Path → Option Nat) (name : Path), name ≠ [] → executes files name = pythonExecutes files [] name

theorem pythonExecutes_append (files : Path → Option Nat) (x : Nat) : ∀ (q pre : Path),
    pythonExecutes files pre (q ++ [x]) = pythonExecutes files pre q ++ (files (pre ++ q ++ [x])).toList
  | [], pre => by simp [pythonExecutes]
  | y :: q, pre => by
    simp only [List.cons_append, pythonExecutes, pythonExecutes_append files x q, List.append_assoc]
    simp

theorem pythonExecutes_nil (files : Path → Option Nat) : ∀ (q pre : Path),
    pythonExecutes files pre q = [] ↔ ∀ a b, a ≠ [] → q = a ++ b → files (pre ++ a) = none
  | [], pre => by
    simp only [pythonExecutes, true_iff]
    intro a b ha e
    exact absurd (List.append_eq_nil_iff.1 e.symm).1 ha
  | y :: q, pre => by
    simp only [pythonExecutes, List.append_eq_nil_iff, pythonExecutes_nil files q]
    constructor
    · rintro ⟨h1, h2⟩ a b ha e
      cases a with
      | nil => exact absurd rfl ha
      | cons z a =>
        simp only [List.cons_append, List.cons.injEq] at e
        obtain ⟨rfl, e⟩ := e
        cases a with
        | nil => simpa using h1
        | cons w a => simpa using h2 (w :: a) b (by simp) e
    · intro h
      refine ⟨by simpa using h [y] q (by simp) rfl, fun a b _ e => ?_⟩
      simpa using h (y :: a) b (by simp) (by simp [e])

/-- Exactly when the right files are executed: if no package of the module has an `__init__.py`. -/
theorem C149_partial (files : Path → Option Nat) (q : Path) (x : Nat) :
    executes files (q ++ [x]) = pythonExecutes files [] (q ++ [x]) ↔
      ∀ a b, a ≠ [] → q = a ++ b → files a = none := by
  have h := pythonExecutes_nil files q []
  simp only [List.nil_append] at h
  rw [← h, pythonExecutes_append, executes]
  simp

/-- `import p.m` does not execute `p/__init__.py`. -/
theorem C149_fails : ¬ C149_packages := by
  intro h
  have := h (fun p => if p = [1] then some 10 else if p = [1, 2] then some 11 else none) [1, 2] (by simp)
  revert this
  decide

/-- A `from` import whose name is not relative is executed unless the module is ignored. -/
theorem C149_ignored_absolute (ignored : List Path) (cur : Path) (pkg : Bool) (name r : Path)
    (h : pythonName cur pkg 0 name = some r) : executed ignored cur 0 name = true ↔ r ∉ ignored := by
  simp only [pythonName, if_true, Option.some.injEq] at h
  subst h
  simp [executed]

/-- `from .typing import f` in `p.q`: the module `p.typing` is not ignored, but its statements are not executed. -/
theorem C149_ignored_fails : ∃ (ignored : List Path) (cur name r : Path),
    pythonName cur false 1 name = some r ∧ r ∉ ignored ∧ executed ignored cur 1 name = false :=
  ⟨[[9]], [1, 2], [9], [1, 9], by decide, by decide, by decide⟩

/-! ### Examples -/

/-- `import a.b.x` and `import a.b.y` in two modules. -/
example : ∀ i ∈ [(⟨0, [1, 2, 3], 10⟩ : Import), ⟨10, [1, 2, 4], 11⟩],
    lookup (run [⟨0, [1, 2, 3], 10⟩, ⟨10, [1, 2, 4], 11⟩]) (.file i.into) i.name = some (.file i.file) :=
  C147_distinct _ ⟨by decide, by decide⟩ (by decide) (by decide)

/-- Directories without `__init__.py`. -/
example : executes (fun p => if p = [1, 2] then some 11 else none) [1, 2] = [11] := by decide

end Nagini.Packages
