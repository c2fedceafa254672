import Verif.Model.Receivers

/-!
C151: the parameters of a called function get the values that Python passes to them.
-/
namespace Nagini.Receivers

variable {V : Type}

/-- The full claim: whatever variables the calling method has, if the call is accepted, the parameters get the values that
they have in Python. -/
def C151_arguments : Prop :=
  ∀ (V : Type) (outer : Nat → Option (Arg V)) (typ : V → V) (form : Form V) (t : Target) (args : List V)
    (ps qs : List (Arg V)),
    pyBind t.params t.varArg t.interface (bound typ form t.kind ++ args) = some ps →
    call outer typ form t args = .passed qs → qs = ps

/-- Calls for which a method of the program is inlined. -/
def Inlined (form : Form V) (t : Target) : Prop :=
  t.inline = true ∨
    t.kind = .normal ∧ t.interface = false ∧ ((∃ c, form = .klass c) ∨ ∃ s, form = .super s)

/-- Target descriptions that occur: functions that are called without receiver are no class methods, and built-in methods
have no `*args` and are not inlined. -/
def Valid (form : Form V) (t : Target) : Prop :=
  ((form = .name ∨ form = .module) → t.kind = .normal) ∧
    (t.interface = true → t.varArg = false ∧ t.inline = false)

/-- The calls for which the claim holds: `super()` is used for normal methods of the program only, inlined methods have no
`*args`, methods with `@Inline` are not called on objects or as class methods, and methods have a parameter for their
receiver. -/
def Good (form : Form V) (t : Target) : Prop :=
  (∀ s, form = .super s → t.kind = .normal ∧ t.interface = false ∧ t.inline = false) ∧
    (Inlined form t → t.varArg = false) ∧
    (t.inline = true → t.kind ≠ .cls ∧ ((∃ o, form = .object o) → t.kind = .static)) ∧
    (t.kind ≠ .static → (form ≠ .name ∧ form ≠ .module) → t.params ≠ 0)

theorem fill_full (outer : Nat → Option (Arg V)) (as : List (Arg V)) : ∀ i, fill outer as i as.length = some as := by
  induction as with
  | nil => intro i; simp [fill]
  | cons a as ih => intro i; simp [fill, ih]

theorem fill_one (outer : Nat → Option (Arg V)) (as : List (Arg V)) :
    ∀ i, fill outer as i (as.length + 1) = (outer (i + as.length)).map (fun o => as ++ [o]) := by
  induction as with
  | nil => intro i; simp only [List.length_nil, Nat.add_zero, List.nil_append]
           cases h : outer i <;> simp [fill, h]
  | cons a as ih =>
    intro i
    simp only [List.length_cons, fill, ih, Option.map_map]
    rw [show i + 1 + as.length = i + (as.length + 1) by omega]
    rfl

theorem viper_full (t : Target) (as extra : List (Arg V)) (h : as.length = t.total) :
    viperCall t (as ++ extra) = .passed as := by
  have e : (as ++ extra).take t.total = as := by rw [← h]; simp
  simp [viperCall, e, h]

theorem inline_full (outer : Nat → Option (Arg V)) (t : Target) (as : List (Arg V)) (hv : t.varArg = false)
    (h : as.length = t.params) : inlineCall outer t none as = .passed as := by
  have e : as.take t.params = as := by rw [← h]; simp
  have e2 : t.total = as.length := by simp [Target.total, hv, h]
  simp [inlineCall, e, e2, fill_full]

theorem inline_super (outer : Nat → Option (Arg V)) (t : Target) (s : V) (as : List (Arg V)) :
    inlineCall outer t (some s) as = inlineCall outer t none (.val s :: as) := rfl

/-- What is translated for a function of the program, if Python accepts the arguments. -/
theorem translate_plain {t : Target} {args : List V} {ps : List (Arg V)} (hi : t.interface = false)
    (h : pyBind t.params t.varArg t.interface args = some ps) :
    translateArgs t false args = some ps ∧ ps.length = t.total := by
  unfold pyBind at h
  unfold translateArgs
  simp only [hi, Bool.false_eq_true, ↓reduceIte, split] at h ⊢
  cases hv : t.varArg <;> simp only [hv, Bool.false_eq_true, ↓reduceIte, Option.ite_none_right_eq_some, Option.some.injEq] at h ⊢
  · obtain ⟨h1, h2⟩ := h
    subst h2
    simp [← h1, Target.total, hv]
  · obtain ⟨h1, h2⟩ := h
    subst h2
    simp [Target.total, hv, h1]

theorem translate_bound {t : Target} {r : V} {args : List V} {ps : List (Arg V)} (hi : t.interface = false)
    (h : pyBind t.params t.varArg t.interface (r :: args) = some ps) (hn : t.params ≠ 0) :
    ∃ qs, translateArgs t true args = some qs ∧ ps = .val r :: qs ∧ ps.length = t.total := by
  obtain ⟨m, hm⟩ := Nat.exists_eq_succ_of_ne_zero hn
  unfold pyBind at h
  unfold translateArgs
  simp only [hi, Bool.false_eq_true, ↓reduceIte, split, hm] at h ⊢
  cases hv : t.varArg <;> simp only [hv, Bool.false_eq_true, ↓reduceIte, Option.ite_none_right_eq_some, Option.some.injEq] at h ⊢
  · obtain ⟨h1, h2⟩ := h
    subst h2
    simp only [List.length_cons, Nat.succ_eq_add_one, Nat.add_right_cancel_iff] at h1
    simp [← h1, Target.total, hv, hm]
  · obtain ⟨h1, h2⟩ := h
    subst h2
    simp only [List.length_cons, Nat.succ_eq_add_one, Nat.add_le_add_iff_right] at h1
    simp [Target.total, hv, hm, h1]

/-- The same for built-in methods. -/
theorem translate_builtin {t : Target} {args : List V} {ps : List (Arg V)} (imp : Bool) (hi : t.interface = true)
    (h : pyBind t.params t.varArg t.interface args = some ps) :
    translateArgs t imp args = some ps ∧ ps.length = t.params := by
  unfold pyBind at h
  unfold translateArgs
  simp only [hi, ↓reduceIte, Option.ite_none_right_eq_some, Option.some.injEq] at h ⊢
  obtain ⟨h1, h2⟩ := h
  subst h2
  refine ⟨⟨h1, rfl⟩, ?_⟩
  simp; omega

theorem translate_builtin_bound {t : Target} {r : V} {args : List V} {ps : List (Arg V)} (imp : Bool)
    (hi : t.interface = true) (h : pyBind t.params t.varArg t.interface (r :: args) = some ps) :
    ∃ qs, translateArgs t imp args = some qs ∧ .val r :: qs = ps ++ [.null] ∧ ps.length = t.params := by
  unfold pyBind at h
  unfold translateArgs
  simp only [hi, ↓reduceIte, Option.ite_none_right_eq_some, Option.some.injEq, List.length_cons] at h ⊢
  obtain ⟨h1, h2⟩ := h
  subst h2
  refine ⟨_, ⟨by omega, rfl⟩, ?_, ?_⟩
  · simp only [List.map_cons, List.cons_append, List.append_assoc, List.cons.injEq, true_and, List.append_cancel_left_eq]
    rw [show t.params - args.length = (t.params - (args.length + 1)) + 1 by omega, List.replicate_succ']
  · simp; omega

/-- What happens at the end, for functions that are called without a receiver. -/
theorem finish_plain (outer : Nat → Option (Arg V)) {t : Target} {args : List V} {ps : List (Arg V)} (imp : Bool)
    (him : t.interface = false → imp = false)
    (hif : t.interface = true → t.varArg = false ∧ t.inline = false) (hv : t.inline = true → t.varArg = false)
    (h : pyBind t.params t.varArg t.interface args = some ps) :
    ∃ qs, translateArgs t imp args = some qs ∧ finish outer t qs qs = .passed ps := by
  cases hi : t.interface with
  | true =>
    obtain ⟨e, hl⟩ := translate_builtin imp hi h
    refine ⟨ps, e, ?_⟩
    have := viper_full t ps [] (by simp [Target.total, (hif hi).1, hl])
    simpa [finish, (hif hi).2] using this
  | false =>
    obtain ⟨e, hl⟩ := translate_plain hi h
    rw [him hi]
    refine ⟨ps, e, ?_⟩
    unfold finish
    split
    · rename_i hin
      exact inline_full outer t ps (hv hin) (by simpa [Target.total, hv hin] using hl)
    · simpa using viper_full t ps [] hl

/-- And with a receiver `r`. -/
theorem finish_bound (outer : Nat → Option (Arg V)) {t : Target} {r : V} {args : List V} {ps : List (Arg V)}
    (hif : t.interface = true → t.varArg = false) (hin : t.inline = false) (hn : t.params ≠ 0)
    (h : pyBind t.params t.varArg t.interface (r :: args) = some ps) :
    ∃ qs, translateArgs t true args = some qs ∧ finish outer t qs (.val r :: qs) = .passed ps := by
  cases hi : t.interface with
  | true =>
    obtain ⟨qs, e, hq, hl⟩ := translate_builtin_bound true hi h
    refine ⟨qs, e, ?_⟩
    simp only [finish, hin, Bool.false_eq_true, ↓reduceIte, hq]
    exact viper_full t ps _ (by simp [Target.total, hif hi, hl])
  | false =>
    obtain ⟨qs, e, hq, hl⟩ := translate_bound hi h hn
    refine ⟨qs, e, ?_⟩
    subst hq
    simp only [finish, hin, Bool.false_eq_true, ↓reduceIte]
    simpa using viper_full t (.val r :: qs) [] hl

/-- Proved part: for these calls, what Python passes is what is passed; in particular they are accepted. -/
theorem C151_partial (outer : Nat → Option (Arg V)) (typ : V → V) (form : Form V) (t : Target) (args : List V)
    (ps : List (Arg V)) (hw : Valid form t) (hg : Good form t)
    (h : pyBind t.params t.varArg t.interface (bound typ form t.kind ++ args) = some ps) :
    call outer typ form t args = .passed ps := by
  obtain ⟨hw1, hw2⟩ := hw
  obtain ⟨hg1, hg2, hg3, hg4⟩ := hg
  have hv : t.inline = true → t.varArg = false := fun hi => hg2 (.inl hi)
  unfold call
  cases form with
  | name =>
    have hk := hw1 (.inl rfl)
    simp only [hk, bound, List.nil_append, implicit] at h ⊢
    obtain ⟨qs, e, hf⟩ := finish_plain outer false (fun _ => rfl) hw2 hv h
    simp [e, hf]
  | module =>
    have hk := hw1 (.inr rfl)
    simp only [hk, bound, List.nil_append, implicit] at h ⊢
    obtain ⟨qs, e, hf⟩ := finish_plain outer false (fun _ => rfl) hw2 hv h
    simp [e, hf]
  | klass c =>
    cases hk : t.kind with
    | static =>
      simp only [hk, bound, List.nil_append, implicit] at h ⊢
      obtain ⟨qs, e, hf⟩ := finish_plain outer false (fun _ => rfl) hw2 hv h
      simp [e, hf]
    | cls =>
      simp only [hk, bound, List.cons_append, List.nil_append, implicit] at h ⊢
      have hin : t.inline = false := by
        cases hi : t.inline with
        | false => rfl
        | true => exact absurd hk (hg3 hi).1
      obtain ⟨qs, e, hf⟩ := finish_bound outer (fun hi => (hw2 hi).1) hin (hg4 (by simp [hk]) (by simp)) h
      simp [e, hf]
    | normal =>
      simp only [hk, bound, List.nil_append, implicit] at h ⊢
      cases hi : t.interface with
      | true =>
        obtain ⟨qs, e, hf⟩ := finish_plain outer false (fun _ => rfl) hw2 hv h
        simp [e, hf]
      | false =>
        have hva := hg2 (.inr ⟨hk, hi, .inl ⟨c, rfl⟩⟩)
        obtain ⟨e, hl⟩ := translate_plain hi h
        simp only [e, Bool.false_eq_true, ↓reduceIte]
        exact inline_full outer t ps hva (by simpa [Target.total, hva] using hl)
  | super s =>
    obtain ⟨hk, hi, hin⟩ := hg1 s rfl
    have hva := hg2 (.inr ⟨hk, hi, .inr ⟨s, rfl⟩⟩)
    simp only [hk, bound, List.cons_append, List.nil_append, implicit] at h ⊢
    obtain ⟨qs, e, hq, hl⟩ := translate_bound hi h (hg4 (by simp [hk]) (by simp))
    simp only [e, hi, Bool.false_eq_true, ↓reduceIte, inline_super]
    subst hq
    exact inline_full outer t _ hva (by simpa [Target.total, hva] using hl)
  | object o =>
    cases hk : t.kind with
    | static =>
      simp only [hk, bound, List.nil_append, implicit] at h ⊢
      obtain ⟨qs, e, hf⟩ := finish_plain outer false (fun _ => rfl) hw2 hv h
      simp [e, hf]
    | cls =>
      simp only [hk, bound, List.cons_append, List.nil_append, implicit] at h ⊢
      have hin : t.inline = false := by
        cases hi : t.inline with
        | false => rfl
        | true => exact absurd hk (hg3 hi).1
      obtain ⟨qs, e, hf⟩ := finish_bound outer (fun hi => (hw2 hi).1) hin (hg4 (by simp [hk]) (by simp)) h
      simp [e, hf]
    | normal =>
      simp only [hk, bound, List.cons_append, List.nil_append, implicit] at h ⊢
      have hin : t.inline = false := by
        cases hi : t.inline with
        | false => rfl
        | true =>
          have := (hg3 hi).2 ⟨o, rfl⟩
          rw [hk] at this
          cases this
      obtain ⟨qs, e, hf⟩ := finish_bound outer (fun hi => (hw2 hi).1) hin (hg4 (by simp [hk]) (by simp)) h
      simp [e, hf]

/-! ### Where the code violates the claim -/

/-- A built-in method called with `super()` does not get `self`: the arguments are shifted, and the rest is null. -/
theorem C151_super_builtin (outer : Nat → Option (Arg V)) (typ : V → V) (s : V) (t : Target) (args : List V)
    (hk : t.kind = .normal) (hi : t.interface = true) (hv : t.varArg = false) (hin : t.inline = false)
    (hl : args.length ≤ t.params) :
    call outer typ (.super s) t args =
      .passed (args.map .val ++ List.replicate (t.params - args.length) .null) := by
  have hp : pyBind t.params t.varArg t.interface args =
      some (args.map .val ++ List.replicate (t.params - args.length) .null) := by
    simp [pyBind, hi, hl]
  obtain ⟨qs, e, hf⟩ := finish_plain outer true (by simp [hi]) (fun _ => ⟨hv, hin⟩) (by simp [hin]) hp
  simp [call, hk, implicit, e, hi, hf]

/-- In an inlined method with `*args`, that parameter is whatever variable with its name the calling method has. -/
theorem C151_inlined_varargs (outer : Nat → Option (Arg V)) (typ : V → V) (c : V) (t : Target) (args : List V)
    (hk : t.kind = .normal) (hi : t.interface = false) (hv : t.varArg = true) (hl : t.params ≤ args.length)
    (qs : List (Arg V)) :
    call outer typ (.klass c) t args = .passed qs ↔
      ∃ o, outer t.params = some o ∧ qs = (args.take t.params).map .val ++ [o] := by
  have hp : pyBind t.params t.varArg t.interface args =
      some ((args.take t.params).map .val ++ [.tup (args.drop t.params)]) := by
    simp [pyBind, hi, hv, hl]
  obtain ⟨e, -⟩ := translate_plain hi hp
  have hm : ((args.take t.params).map (Arg.val (V := V))).length = t.params := by simp [hl]
  have ht : (((args.take t.params).map (Arg.val (V := V))) ++ [Arg.tup (args.drop t.params)]).take t.params =
      (args.take t.params).map .val := by
    rw [List.take_append_of_le_length (by omega), List.take_of_length_le (by omega)]
  have hf := fill_one outer ((args.take t.params).map (Arg.val (V := V))) 0
  rw [hm, Nat.zero_add] at hf
  simp only [call, hk, implicit, e, hi, Bool.false_eq_true, ↓reduceIte, inlineCall, ht, Target.total, hv, hf]
  cases ho : outer t.params with
  | none => simp
  | some o => simp [eq_comm]

/-- A static method with parameters cannot be called with `super()`. -/
theorem C151_super_static (outer : Nat → Option (Arg V)) (typ : V → V) (s : V) (t : Target) (args : List V)
    (hk : t.kind = .static) (hi : t.interface = false) (hin : t.inline = false) (hn : t.params ≠ 0) :
    call outer typ (.super s) t args = .rejected := by
  obtain ⟨m, hm⟩ := Nat.exists_eq_succ_of_ne_zero hn
  simp only [call, hk, implicit, translateArgs, hi, split, hm, Bool.false_eq_true, ↓reduceIte]
  split
  · rfl
  · rename_i as e
    split at e
    · cases e
    · simp only [Option.some.injEq] at e
      subst e
      have : ∀ (k : Nat), (args.take m).length + k < m + 1 + k := by intro k; simp; omega
      cases hv : t.varArg
      · have h0 := this 0
        simp only [finish, hin, viperCall, Target.total, hm, hv, Bool.false_eq_true, ↓reduceIte, ite_eq_right_iff]
        intro h
        simp at h h0
        omega
      · have h0 := this 1
        simp only [finish, hin, viperCall, Target.total, hm, hv, Bool.false_eq_true, ↓reduceIte, ite_eq_right_iff]
        intro h
        simp at h h0
        omega

/-- `int.__eq__`. -/
def eqTarget : Target := ⟨.normal, 2, false, true, false⟩

/-- In a method of a class that extends `int`, `super().__eq__(5)` is translated to `int___eq__(5, null)`, which is false, also
if `self` is equal to 5. -/
theorem C151_fails : ¬ C151_arguments := by
  intro h
  have := h Nat (fun _ => none) id (.super 1) eqTarget [5] [.val 1, .val 5] [.val 5, .null] (by decide) (by decide)
  cases this

/-- `def f(self, *xs)`. -/
def varTarget : Target := ⟨.normal, 1, true, false, false⟩

/-- In a method with a parameter `*xs`, `super().f(7)` passes the value of that parameter. -/
theorem C151_varargs_fails : ¬ C151_arguments := by
  intro h
  have := h Nat (fun i => if i = 1 then some (.tup [2, 3]) else none) id (.super 1) varTarget [7] [.val 1, .tup [7]]
    [.val 1, .tup [2, 3]] (by decide) (by decide)
  cases this

/-! ### Examples -/

/-- `def f(self, x, *xs)`. -/
def exTarget : Target := ⟨.normal, 2, true, false, false⟩

example : Valid (Form.object 1) exTarget ∧ Good (Form.object 1) exTarget := by
  simp [Valid, Good, Inlined, exTarget]

example : pyBind exTarget.params exTarget.varArg exTarget.interface (bound id (Form.object 1) exTarget.kind ++ [5, 6, 7]) =
    some [.val 1, .val 5, .tup [6, 7]] := by decide

example : call (fun _ => none) id (.object 1) exTarget [5, 6, 7] = .passed [.val 1, .val 5, .tup [6, 7]] := by decide

/-- `super().m(5)` for a method with two parameters. -/
example : Valid (Form.super 1) ⟨.normal, 2, false, false, false⟩ ∧ Good (Form.super 1) ⟨.normal, 2, false, false, false⟩ ∧
    call (fun _ => none) id (.super 1) ⟨.normal, 2, false, false, false⟩ [5] = .passed [.val 1, .val 5] := by
  refine ⟨?_, ?_, by decide⟩
  · simp [Valid]
  · simp [Good, Inlined]

end Nagini.Receivers
