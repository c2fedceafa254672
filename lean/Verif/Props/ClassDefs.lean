import Verif.Model.ClassDefs

/-!
C152: different classes of a program are different classes for nagini.
-/
namespace Nagini.ClassDefs

/-- The full claim: in all accepted programs, definitions and uses of classes refer to the classes that they refer to in
Python. -/
def C152_classes : Prop :=
  ∀ (builtins : List String) (es : List Event) (fs : List Found), run (initial builtins) es = some fs →
    fs = es.map (fun e => .cls e.python)

/-- The guard: classes of different modules have different names, which are not those of built-in classes, of `typing`, or
of type variables of the class in which they are used; imports change no names. -/
structure Good (builtins : List String) (es : List Event) : Prop where
  distinct : ∀ e ∈ es, ∀ e' ∈ es, e.name = e'.name → e.mod.id = e'.mod.id
  builtin : ∀ e ∈ es, e.name ∉ builtins
  typing : ∀ e ∈ es, e.name ∉ typingNames
  tvars : ∀ e ∈ es, e.name ∉ e.tvars
  plain : ∀ e ∈ es, e.mod.Plain

theorem alias_self {n : String} (h : n ∉ typingNames) : alias n = n := by
  simp only [typingNames, List.mem_cons, List.not_mem_nil, or_false, not_or] at h
  unfold alias
  split <;> simp_all

theorem findFirst_mem {n : String} {d : Cls} : ∀ {cs : List (String → Option Cls)}, findFirst n cs = some d →
    ∃ c ∈ cs, c n = some d
  | [], h => by cases h
  | c :: cs, h => by
    rw [findFirst] at h
    cases hc : c n with
    | some e =>
      rw [hc] at h
      cases h
      exact ⟨c, by simp, hc⟩
    | none =>
      rw [hc] at h
      obtain ⟨c', h1, h2⟩ := findFirst_mem h
      exact ⟨c', by simp [h1], h2⟩

theorem viewNames_plain {n k : String} : ∀ {ns : List (String × Option String)},
    (∀ p ∈ ns, p.2 = none ∨ p.2 = some p.1) → viewNames ns n = some k → k = n
  | [], _, h => by cases h
  | p :: ps, hp, h => by
    rw [viewNames] at h
    cases hv : viewNames ps n with
    | some j =>
      rw [hv] at h
      cases h
      exact viewNames_plain (fun q hq => hp q (by simp [hq])) hv
    | none =>
      rw [hv] at h
      simp only [Option.ite_none_right_eq_some, Option.some.injEq] at h
      obtain ⟨h1, h2⟩ := h
      rcases hp p (by simp) with hq | hq <;> simp [hq] at h1 <;> rw [← h2, h1]

theorem classes_some {st : State} {m : Option Nat} {n : String} {d : Cls} (h : st.classes m n = some d) :
    d.name = n ∧ st.has d = true := by
  unfold State.classes at h
  split at h
  · cases h
    exact ⟨rfl, by assumption⟩
  · cases h

/-- Only existing classes with the right name are visible. -/
def Sees (st : State) (c : String → Option Cls) : Prop := ∀ n d, c n = some d → d.name = n ∧ st.has d = true

theorem sees_view {st : State} {ns : List (String × Option String)} {cs : List (String → Option Cls)}
    (hn : ∀ p ∈ ns, p.2 = none ∨ p.2 = some p.1) (hc : ∀ c ∈ cs, Sees st c) : Sees st (view ns cs) := by
  intro n d h
  unfold view at h
  cases hv : viewNames ns n with
  | none => rw [hv] at h; cases h
  | some k =>
    rw [hv] at h
    rw [← viewNames_plain hn hv]
    obtain ⟨c, h1, h2⟩ := findFirst_mem h
    exact hc c h1 k d h2

mutual
theorem sees_mod (st : State) : ∀ (m : Mod), m.Plain → ∀ c ∈ m.included st, Sees st c
  | .mk i imports, h, c, hc => by
    rw [Mod.included] at hc
    rw [Mod.Plain] at h
    rcases List.mem_cons.1 hc with rfl | hc
    · exact fun n d => classes_some
    · exact sees_imports st imports h c hc
theorem sees_imports (st : State) : ∀ (is : Imports), is.Plain → ∀ c ∈ is.included st, Sees st c
  | .nil, _, c, hc => by simp [Imports.included] at hc
  | .cons none m rest, h, c, hc => by
    rw [Imports.included] at hc
    rw [Imports.Plain] at h
    rcases List.mem_append.1 hc with hc | hc
    · exact sees_mod st m h.1 c hc
    · exact sees_imports st rest h.2 c hc
  | .cons (some ns) (.mk i imports) rest, h, c, hc => by
    rw [Imports.included] at hc
    rw [Imports.Plain, Mod.Plain] at h
    obtain ⟨h1, h2, h3⟩ := h
    rcases List.mem_cons.1 hc with rfl | hc
    · refine sees_view h1 ?_
      intro c' hc'
      rcases List.mem_cons.1 hc' with rfl | hc'
      · exact fun n d => classes_some
      · exact sees_imports st imports h2 c' hc'
    · rcases List.mem_append.1 hc with hc | hc
      · exact sees_imports st imports h2 c hc
      · exact sees_imports st rest h3 c hc
end

/-- All classes are built in or belong to the program. -/
def Inv (builtins : List String) (all : List Event) (st : State) : Prop :=
  ∀ c, st.has c = true → (c.name ∈ builtins) ∨ ∃ e ∈ all, c = e.python

theorem findOrCreate_good {builtins : List String} {all : List Event} {st : State} (hg : Good builtins all)
    (hi : Inv builtins all st) {e : Event} (he : e ∈ all) :
    ∃ st', findOrCreate st e.tvars e.mod e.name = (.cls e.python, st') ∧ Inv builtins all st' ∧
      st'.has e.python = true ∧ st'.defined = st.defined ∧ ∀ c, st.has c = true → st'.has c = true := by
  unfold findOrCreate
  simp only [alias_self (hg.typing e he), hg.tvars e he, ↓reduceIte]
  cases hf : findFirst e.name (e.mod.included st ++ [st.classes none]) with
  | some d =>
    obtain ⟨c, hc, hd⟩ := findFirst_mem hf
    have hs : d.name = e.name ∧ st.has d = true := by
      rcases List.mem_append.1 hc with hc | hc
      · exact sees_mod st e.mod (hg.plain e he) c hc _ _ hd
      · simp only [List.mem_cons, List.not_mem_nil, or_false] at hc
        subst hc
        exact classes_some hd
    have hde : d = e.python := by
      rcases hi d hs.2 with hb | ⟨e', he', rfl⟩
      · exact absurd (hs.1 ▸ hb) (hg.builtin e he)
      · have hn : e'.name = e.name := hs.1
        have hm := hg.distinct e' he' e he hn
        simp [Event.python, hn, hm]
    subst hde
    exact ⟨st, rfl, hi, hs.2, rfl, fun _ h => h⟩
  | none =>
    refine ⟨_, rfl, ?_, ?_, rfl, ?_⟩
    · intro c hc
      simp only at hc
      split at hc
      · rename_i h
        exact .inr ⟨e, he, h⟩
      · exact hi c hc
    · simp [Event.python]
    · intro c hc
      simp only
      split
      · rfl
      · exact hc

/-- The classes of the program that have been defined. -/
def DefInv (st : State) (done : List Cls) : Prop :=
  ∀ c, c.mod ≠ none → ((st.has c = true ∧ st.defined c = true) ↔ c ∈ done) ∧ (st.defined c = true → c ∈ done)

theorem run_good {builtins : List String} {all : List Event} (hg : Good builtins all) :
    ∀ (es : List Event) (st : State) (done : List Cls), (∀ e ∈ es, e ∈ all) → Inv builtins all st → DefInv st done →
      done.Nodup →
      run st es = if (definitions es ++ done).Nodup then some (es.map (fun e => .cls e.python)) else none
  | [], st, done, _, _, _, hd => by simp [run, definitions, hd]
  | .define m n :: es, st, done, hm, hi, hj, hd => by
    have he := hm _ (List.mem_cons_self ..)
    have hm' : ∀ e ∈ es, e ∈ all := fun e h => hm e (List.mem_cons_of_mem _ h)
    obtain ⟨st', hf, hi', hh, hdf, hmono⟩ := findOrCreate_good hg hi he
    simp only [Event.tvars, Event.mod, Event.name, Event.python] at hf hh
    have hj0 := hj ⟨some m.id, n⟩ (by simp)
    have hnew : defineNew st m n = true ↔ (⟨some m.id, n⟩ : Cls) ∉ done := by
      rw [← hj0.1]
      unfold defineNew State.classes
      cases h1 : st.has ⟨some m.id, n⟩ <;> simp
    rw [run, step]
    by_cases hin : (⟨some m.id, n⟩ : Cls) ∈ done
    · have hn : defineNew st m n = false := by
        cases h : defineNew st m n with
        | false => rfl
        | true => exact absurd hin (hnew.1 h)
      have hnd : ¬ (definitions (.define m n :: es) ++ done).Nodup := by
        simp only [definitions, List.cons_append, List.nodup_cons, not_and]
        intro h
        exact absurd (List.mem_append_right _ hin) h
      simp [hn, hnd]
    · simp only [hnew.2 hin, ↓reduceIte, hf]
      have hj' : DefInv { st' with defined := fun d => if d = ⟨some m.id, n⟩ then true else st'.defined d }
          (⟨some m.id, n⟩ :: done) := by
        intro c hc
        by_cases hcn : c = ⟨some m.id, n⟩
        · subst hcn
          simp [hh]
        · simp only [hcn, ↓reduceIte, List.mem_cons, false_or, hdf]
          refine ⟨⟨fun h => (hj c hc).2 h.2, fun h => ?_⟩, (hj c hc).2⟩
          have := (hj c hc).1.2 h
          exact ⟨hmono c this.1, this.2⟩
      have hi2 : Inv builtins all { st' with defined := fun d => if d = ⟨some m.id, n⟩ then true else st'.defined d } :=
        hi'
      rw [run_good hg es _ _ hm' hi2 hj' (List.nodup_cons.2 ⟨hin, hd⟩)]
      have hperm : (definitions (.define m n :: es) ++ done).Nodup ↔
          (definitions es ++ (⟨some m.id, n⟩ :: done)).Nodup := by
        simp only [definitions]
        exact (List.perm_middle.symm).nodup_iff
      by_cases hnd : (definitions es ++ (⟨some m.id, n⟩ :: done)).Nodup
      · simp [hperm, hnd, Event.python, Event.mod, Event.name]
      · simp [hperm, hnd]
  | .use m n tvs :: es, st, done, hm, hi, hj, hd => by
    have he := hm _ (List.mem_cons_self ..)
    have hm' : ∀ e ∈ es, e ∈ all := fun e h => hm e (List.mem_cons_of_mem _ h)
    obtain ⟨st', hf, hi', hh, hdf, hmono⟩ := findOrCreate_good hg hi he
    simp only [Event.tvars, Event.mod, Event.name, Event.python] at hf hh
    rw [run, step, hf]
    have hj' : DefInv st' done := by
      intro c hc
      rw [hdf]
      refine ⟨⟨fun h => (hj c hc).2 h.2, fun h => ?_⟩, (hj c hc).2⟩
      have := (hj c hc).1.2 h
      exact ⟨hmono c this.1, this.2⟩
    simp only [run_good hg es st' done hm' hi' hj' hd, definitions]
    split
    · rename_i h
      simp [h, Event.python, Event.mod, Event.name]
    · rename_i h
      simp [h]

/-- Proved part: under the guard, programs are accepted exactly if no class is defined twice, and then all definitions and
uses refer to the right classes. -/
theorem C152_partial (builtins : List String) (es : List Event) (hg : Good builtins es) :
    run (initial builtins) es =
      if (definitions es).Nodup then some (es.map (fun e => .cls e.python)) else none := by
  have h := run_good hg es (initial builtins) [] (fun _ h => h) ?_ ?_ List.nodup_nil
  · simpa using h
  · intro c hc
    simp only [initial, decide_eq_true_eq] at hc
    exact .inl hc.2
  · intro c hc
    simp [initial, hc]

/-- So different classes stay different. -/
theorem C152_injective (builtins : List String) (es : List Event) (hg : Good builtins es) (fs : List Found)
    (h : run (initial builtins) es = some fs) (i j : Nat) (e e' : Event) (hi : es[i]? = some e) (hj : es[j]? = some e')
    (hf : fs[i]? = fs[j]?) : e.python = e'.python := by
  rw [C152_partial builtins es hg] at h
  split at h
  · cases h
    simpa [hi, hj] using hf
  · cases h

/-! ### Where the code violates the claim -/

/-- Module 0 defines `A`; module 1 contains `from m0 import A`; module 2 contains `from m1 import g`. -/
def m0 : Mod := .mk 0 .nil
/-- See `m0`. -/
def m1 : Mod := .mk 1 (.cons (some [("A", none)]) m0 .nil)
/-- See `m0`. -/
def m2 : Mod := .mk 2 (.cons (some [("g", none)]) m1 .nil)

/-- If module 2 defines a class `A`, it becomes the one of module 0, though it does not import that. -/
theorem C152_imports_fail :
    run (initial []) [.define m0 "A", .define m2 "A"] = some [.cls ⟨some 0, "A"⟩, .cls ⟨some 0, "A"⟩] := by decide

/-- A class with the name of a built-in one becomes the built-in class, in every module. -/
theorem C152_builtin_fails (builtins : List String) (m m' : Mod) (n : String) (hn : n ∈ builtins)
    (ht : n ∉ typingNames) (hm : m = .mk m.id .nil) (hm' : m' = .mk m'.id .nil) :
    run (initial builtins) [.define m n, .define m' n] = some [.cls ⟨none, n⟩, .cls ⟨none, n⟩] := by
  rw [hm, hm']
  simp [run, step, defineNew, findOrCreate, alias_self ht, Mod.included, Imports.included, findFirst, State.classes,
    initial, hn]

/-- A class `Set` becomes the built-in class `set`. -/
theorem C152_typing_fails (builtins : List String) (h : "set" ∈ builtins) (i : Nat) :
    run (initial builtins) [.define (.mk i .nil) "Set"] = some [.cls ⟨none, "set"⟩] := by
  simp [run, step, defineNew, findOrCreate, alias, Mod.included, Imports.included, findFirst, State.classes,
    initial, h]

/-- A class with the name of a type variable of the class that uses it is taken for the type variable. -/
theorem C152_tvar_fails (st : State) (m : Mod) (n : String) (tvs : List String) (h : n ∈ tvs) (ht : n ∉ typingNames) :
    (findOrCreate st tvs m n).1 = .tvar n := by
  simp [findOrCreate, alias_self ht, h]

/-- The claim does not hold. -/
theorem C152_fails : ¬ C152_classes := by
  intro h
  have := h [] _ _ C152_imports_fail
  simp [Event.python, Event.mod, Event.name, m0, m2, Mod.id] at this

/-! ### Examples -/

/-- `B` is defined in module 2 after it has been used; `A` is imported by module 1. -/
def exEvents : List Event := [.define m0 "A", .use m2 "B" ["T"], .use m0 "A" [], .define m2 "B"]

example : Good ["set", "int"] exEvents := by
  constructor
  all_goals simp [exEvents, Event.name, Event.mod, Event.tvars, typingNames, m0, m1, m2, Mod.id, Mod.Plain, Imports.Plain]

example : (definitions exEvents).Nodup ∧ run (initial ["set", "int"]) exEvents =
    some [.cls ⟨some 0, "A"⟩, .cls ⟨some 2, "B"⟩, .cls ⟨some 0, "A"⟩, .cls ⟨some 2, "B"⟩] := by decide

/-- Defining a class twice is rejected. -/
example : run (initial ["set"]) [.define m0 "A", .define m0 "A"] = none := by decide

end Nagini.ClassDefs
