import Verif.Model.ImportTargets

/-!
C145: the statements of every module that is imported with `from m import …` are verified.
-/
namespace Nagini.ImportTargets

/-- The full claim: the modules that Python executes for the `from` imports of a module are the ones whose statements
are translated. -/
def C145_imports : Prop :=
  ∀ imports : List Module, (imports.map Module.name).Nodup →
    executes imports = (pythonExecutes imports).map some

/-- Exactly when an import finds its module: if the name of the module is not a prefix of the file of another module
that is imported before. -/
theorem C145_exact (pre post : List Module) (m : Module)
    (hn : ((pre ++ m :: post).map Module.name).Nodup) :
    target (pre ++ m :: post) m.name = some m ↔
      ∀ k ∈ pre, ∀ f, file k = some f → ¬ m.name <+: f := by
  have hne : ∀ k ∈ pre, k.name ≠ m.name := by
    intro k hk e
    simp only [List.map_append, List.map_cons] at hn
    exact (List.nodup_append.1 hn).2.2 _ (List.mem_map_of_mem hk) _ (by simp) e
  have hm : isTaken m.name m = true := by simp [isTaken]
  have hk : ∀ k ∈ pre, (isTaken m.name k = false ↔ ∀ f, file k = some f → ¬ m.name <+: f) := by
    intro k hk
    have := hne k hk
    cases hf : file k with
    | none => simp [isTaken, this, hf]
    | some f => simp [isTaken, this, hf, ← List.isPrefixOf_iff_prefix]
  have key : target (pre ++ m :: post) m.name = some m ↔ ∀ k ∈ pre, isTaken m.name k = false := by
    unfold target
    rw [List.find?_append]
    constructor
    · intro h k hk'
      cases hf : pre.find? (isTaken m.name) with
      | none =>
        have := List.find?_eq_none.1 hf k hk'
        simpa using this
      | some r =>
        rw [hf] at h
        simp only [Option.some_or, Option.some.injEq] at h
        have hr : r ∈ pre := List.mem_of_find?_eq_some hf
        exact absurd (by rw [h]) (hne r hr)
    · intro h
      have : pre.find? (isTaken m.name) = none := List.find?_eq_none.2 fun k hk => by simp [h k hk]
      rw [this]
      simp [List.find?, hm]
  rw [key]
  exact ⟨fun h k hk' => (hk k hk').1 (h k hk'), fun h k hk' => (hk k hk').2 (h k hk')⟩

/-- Proved part: the claim holds if no name of an imported module is a prefix of the file of another one. -/
theorem C145_partial (imports : List Module) (hn : (imports.map Module.name).Nodup)
    (h : ∀ m ∈ imports, ∀ k ∈ imports, k ≠ m → ∀ f, file k = some f → ¬ m.name <+: f) :
    executes imports = (pythonExecutes imports).map some := by
  unfold executes pythonExecutes
  rw [List.map_map]
  refine List.map_congr_left fun m hm => ?_
  obtain ⟨pre, post, rfl⟩ := List.append_of_mem hm
  have : target (pre ++ m :: post) m.name = some m := by
    rw [C145_exact pre post m hn]
    intro k hk
    refine h m hm k (by simp [hk]) ?_
    rintro rfl
    simp only [List.map_append, List.map_cons] at hn
    exact (List.nodup_append.1 hn).2.2 _ (List.mem_map_of_mem hk) _ (by simp) rfl
  rw [this]
  rfl

theorem suffixFrom_append (sub s : Str) : ∀ pre : Str,
    (∀ p q, p ++ q = pre → q ≠ [] → ¬ sub <+: q ++ (sub ++ s)) → suffixFrom sub (pre ++ (sub ++ s)) = some (sub ++ s)
  | [], _ => by
    simp only [List.nil_append]
    have hp : sub.isPrefixOf (sub ++ s) = true := by
      rw [List.isPrefixOf_iff_prefix]; exact List.prefix_append _ _
    cases hs : sub ++ s with
    | nil =>
      have : sub = [] := (List.append_eq_nil_iff.1 hs).1
      simp [suffixFrom, this]
    | cons c t =>
      rw [hs] at hp
      simp [suffixFrom, hp]
  | c :: pre, h => by
    have h0 : sub.isPrefixOf (c :: (pre ++ (sub ++ s))) = false := by
      have := h [] (c :: pre) rfl (by simp)
      rw [← List.isPrefixOf_iff_prefix] at this
      exact Bool.eq_false_iff.2 this
    simp only [List.cons_append, suffixFrom, h0]
    exact suffixFrom_append sub s pre fun p q e hq => h (c :: p) q (by simp [e]) hq

/-- The extension of Python files. -/
def py : Str := ['.', 'p', 'y']

/-- The file of a module `m` that is in no package is `m.py`, if its name does not occur earlier in the path: such a module
is taken for every module whose name is a prefix of it. -/
theorem C145_toplevel (m : Module) (dir : Str) (hp : m.path = dir ++ (m.name ++ py)) (hd : '.' ∉ m.name)
    (ho : ∀ p q, p ++ q = dir → q ≠ [] → ¬ m.name <+: q ++ (m.name ++ py)) :
    file m = some (m.name ++ py) ∧ ∀ name, name <+: m.name → isTaken name m = true := by
  have hf : firstPart m.name = m.name := by
    unfold firstPart
    have key : ∀ l : Str, '.' ∉ l → l.takeWhile (· ≠ '.') = l := by
      intro l
      induction l with
      | nil => intro _; rfl
      | cons c l ih =>
        intro hl
        simp only [List.mem_cons, not_or] at hl
        have hc : c ≠ '.' := fun e => hl.1 e.symm
        rw [List.takeWhile_cons_of_pos (by simp [hc]), ih hl.2]
    exact key _ hd
  have h1 : file m = some (m.name ++ py) := by
    unfold file
    rw [hf, hp]
    exact suffixFrom_append m.name py dir ho
  refine ⟨h1, fun name hname => ?_⟩
  have : name.isPrefixOf (m.name ++ py) = true := by
    rw [List.isPrefixOf_iff_prefix]
    exact hname.trans (List.prefix_append _ _)
  simp [isTaken, h1, this]

/-! ### Where the code violates the claim -/

/-- The module `ab`, in the file `/ab.py`. -/
def ab : Module := ⟨['a', 'b'], ['/', 'a', 'b', '.', 'p', 'y']⟩
/-- The module `a`, in the file `/a.py`. -/
def a : Module := ⟨['a'], ['/', 'a', '.', 'p', 'y']⟩

/-- `from ab import *` and then `from a import *`: the second one finds `ab`, whose name begins with `a`, and the
statements of `a` are never verified. -/
theorem C145_fails : ¬ C145_imports := by
  intro h
  have := h [ab, a] (by decide)
  revert this
  decide

/-- The module is not even looked at in that program. -/
example : executes [ab, a] = [some ['a', 'b'], some ['a', 'b']] ∧ executes [a, ab] = [some ['a'], some ['a', 'b']] := by
  decide

/-- A list of imports that meets the guard of the proved part. -/
example : ∀ m ∈ [a, ⟨['c'], ['/', 'c', '.', 'p', 'y']⟩], ∀ k ∈ [a, ⟨['c'], ['/', 'c', '.', 'p', 'y']⟩], k ≠ m →
    ∀ f, file k = some f → ¬ m.name <+: f := by
  have key : ∀ m ∈ [a, ⟨['c'], ['/', 'c', '.', 'p', 'y']⟩], ∀ k ∈ [a, ⟨['c'], ['/', 'c', '.', 'p', 'y']⟩], k ≠ m →
      ((file k).map fun f => m.name.isPrefixOf f) = some false := by decide
  intro m hm k hk hne f hf hpre
  have := key m hm k hk hne
  rw [hf] at this
  simp only [Option.map_some, Option.some.injEq] at this
  rw [← List.isPrefixOf_iff_prefix, this] at hpre
  cases hpre

/-- The file of `ab` is `ab.py`. -/
example : file ab = some ['a', 'b', '.', 'p', 'y'] :=
  (C145_toplevel ab ['/'] rfl (by decide) (by
    intro p q e hq
    have : p = [] ∧ q = ['/'] := by
      cases p with
      | nil => exact ⟨rfl, by simpa using e⟩
      | cons c p =>
        simp only [List.cons_append, List.cons.injEq, List.append_eq_nil_iff] at e
        exact absurd e.2.2 hq
    rw [this.2, ← List.isPrefixOf_iff_prefix]
    decide)).1

end Nagini.ImportTargets
