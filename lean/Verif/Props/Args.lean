import Verif.Lemmas.Args

/-!
C14: arguments of calls are bound to the parameters Python binds them to.
C55: the arguments of a thread are checked against the parameter types.
-/
namespace Nagini.Args

variable {E : Type}

/-- **C14** (full claim): whenever Python accepts a call and the call is translated, every parameter
gets the value Python gives it.  `r` is the receiver of a method call. -/
def C14 : Prop :=
  ∀ (E : Type) (s : Sig E), s.Wf → ∀ (recv : Bool) (r : Val E), (recv = true → s.pos ≠ []) →
    ∀ (ps : List (Pos E)) (ks : List (Kw E)) (order : List E) (out res : List (Val E)),
      translateArgs s recv ps ks = .ok (order, out) →
      Binds s (withRecv recv r (ps.flatMap Pos.values)) (ks.flatMap Kw.values) res →
      withRecv recv r out = res

/-- `def f(a=1, *, c=2)` -/
def kwDefault : Sig Nat := ⟨[], ["a"], [1], [("c", some 2)], false, false⟩

/-- **C14 fails**: for `def f(a=1, *, c=2)` the call `f(0)` passes 1 for `c`. -/
theorem C14_fails : ¬ C14 := by
  intro h
  have := h Nat kwDefault ⟨by decide, by decide⟩ false (.expr 0) (by decide) [.plain 0] [] [0]
    [.expr 0, .expr 1] [.expr 0, .expr 2] (by rfl)
    { nodup := by simp
      fits := by simp [withRecv, Pos.values, kwDefault, Sig.positional]
      clash := by simp
      known := by simp
      positional := by
        intro i n hi
        cases i with
        | zero => exact ⟨_, rfl, Or.inl rfl⟩
        | succ i => simp [kwDefault, Sig.positional] at hi
      kwonly := by
        intro j n d hj
        cases j with
        | zero =>
          simp only [kwDefault, List.getElem?_cons_zero, Option.some.injEq, Prod.mk.injEq] at hj
          exact ⟨.expr 2, rfl, Or.inr ⟨by simp, 2, hj.2.symm, rfl⟩⟩
        | succ j => simp [kwDefault] at hj
      rest := rfl }
  simp [withRecv] at this

/-- **C14 fails** for unpacked dicts: for `def f(a=1)` the call `f(**{'a': 0})` passes 1. -/
theorem C14_unpack_fails :
    ∃ (s : Sig Nat) (ks : List (Kw Nat)) (order : List Nat) (out res : List (Val Nat)), s.Wf ∧
      translateArgs s false [] ks = .ok (order, out) ∧ Binds s [] (ks.flatMap Kw.values) res ∧
      out = [.expr 1] ∧ res = [.entry 0 "a"] := by
  refine ⟨⟨[], ["a"], [1], [], false, false⟩, [.unpack 0 ["a"]], [], _, _, ⟨by decide, by decide⟩,
    rfl, ?_, rfl, rfl⟩
  exact
    { nodup := by simp [Kw.values]
      fits := by simp
      clash := by simp
      known := by simp [Kw.values, Sig.named]
      positional := by
        intro i n hi
        cases i with
        | zero =>
          simp only [Sig.positional, List.nil_append, List.getElem?_cons_zero,
            Option.some.injEq] at hi
          subst hi
          exact ⟨_, rfl, Or.inr (Or.inl ⟨Nat.zero_le _, by simp, by simp [Kw.values]⟩)⟩
        | succ i => simp [Sig.positional] at hi
      kwonly := by simp
      rest := rfl }

/-- **C14 fails** for positional-only parameters: for `def f(x, /, y)` the call `f(7, 8)` passes 7
for `y`, the only parameter that is translated. -/
theorem C14_posonly_fails :
    ∃ (order : List Nat), translateArgs (⟨["x"], ["y"], [], [], false, false⟩ : Sig Nat) false
        [.plain 7, .plain 8] [] = .ok (order, [.expr 7]) ∧
      Binds (⟨["x"], ["y"], [], [], false, false⟩ : Sig Nat) [.expr 7, .expr 8] []
        [.expr 7, .expr 8] := by
  refine ⟨_, rfl, ?_⟩
  exact
    { nodup := by simp
      fits := by simp [Sig.positional]
      clash := by simp
      known := by simp
      positional := by
        intro i n hi
        match i with
        | 0 => exact ⟨_, rfl, Or.inl rfl⟩
        | 1 => exact ⟨_, rfl, Or.inl rfl⟩
        | i + 2 => simp [Sig.positional] at hi
      kwonly := by simp
      rest := rfl }

/-- **C14, exactly** (partial: no positional-only parameters, no `**e` arguments): a translated call
binds all parameters as Python does if and only if the stored default value of every parameter
without argument is the one Python uses. -/
theorem C14_bind_iff_partial (s : Sig E) (hwf : s.Wf) (hpo : s.posonly = []) (recv : Bool) (r : Val E)
    (hr : recv = true → s.pos ≠ []) (ps : List (Pos E)) (ks : List (Kw E))
    (hk : ∀ k ∈ ks, k.IsNamed) (order : List E) (out res : List (Val E))
    (h : translateArgs s recv ps ks = .ok (order, out))
    (hb : Binds s (withRecv recv r (ps.flatMap Pos.values)) (ks.flatMap Kw.values) res) :
    withRecv recv r out = res ↔
      ∀ i n, Omitted s (withRecv recv r (ps.flatMap Pos.values)) (ks.flatMap Kw.values) i n →
        s.argDefaults[i]? = some (s.pyDefault i) :=
  bind_iff s hwf hpo recv r hr ps ks hk order out res h hb

/-- **C14** (partial: no positional-only parameters, no `**e` arguments, and not both default values
and keyword-only parameters): every parameter gets the value Python gives it. -/
theorem C14_bind_partial (s : Sig E) (hwf : s.Wf) (hpo : s.posonly = [])
    (hko : s.kwonly = [] ∨ s.defaults = []) (recv : Bool) (r : Val E)
    (hr : recv = true → s.pos ≠ []) (ps : List (Pos E)) (ks : List (Kw E))
    (hk : ∀ k ∈ ks, k.IsNamed) (order : List E) (out res : List (Val E))
    (h : translateArgs s recv ps ks = .ok (order, out))
    (hb : Binds s (withRecv recv r (ps.flatMap Pos.values)) (ks.flatMap Kw.values) res) :
    withRecv recv r out = res :=
  bind_eq s hwf hpo hko recv r hr ps ks hk order out res h hb

/-- **C14**: calls of functions without keyword-only parameters are translated if Python accepts
them, there is no starred argument of unknown length and `*args` gets at most nine values. -/
theorem C14_total (s : Sig E) (hwf : s.Wf) (hpo : s.posonly = []) (hko : s.kwonly = []) (recv : Bool)
    (r : Val E) (hr : recv = true → s.pos ≠ []) (ps : List (Pos E)) (ks : List (Kw E))
    (hk : ∀ k ∈ ks, k.IsNamed) (hs : ∀ e, Pos.star e none ∉ ps)
    (h9 : s.vararg = true →
      (withRecv recv r (ps.flatMap Pos.values)).length ≤ s.positional.length + 9)
    (res : List (Val E))
    (hb : Binds s (withRecv recv r (ps.flatMap Pos.values)) (ks.flatMap Kw.values) res) :
    ∃ order out, translateArgs s recv ps ks = .ok (order, out) :=
  translate_total s hwf hpo hko recv r hr ps ks hk hs h9 res hb

/-- **C14, keyword-only defaults**: whenever a signature has default values for ordinary parameters,
the last keyword-only parameter gets the last of them when it is left out, whatever its own default
value is.  (`C14_fails` contains a case: `kwDefault` with the call `f(0)`.) -/
theorem C14_kwonly_default_wrong (s : Sig E) (hwf : s.Wf) (hpo : s.posonly = []) (recv : Bool)
    (r : Val E) (hr : recv = true → s.pos ≠ []) (ps : List (Pos E)) (ks : List (Kw E))
    (hk : ∀ k ∈ ks, k.IsNamed) (d : E) (ds : List E) (n : String) (e : Option E)
    (kw : List (String × Option E)) (hd : s.defaults = ds ++ [d]) (hkw : s.kwonly = kw ++ [(n, e)])
    (order : List E) (out res : List (Val E))
    (h : translateArgs s recv ps ks = .ok (order, out))
    (hb : Binds s (withRecv recv r (ps.flatMap Pos.values)) (ks.flatMap Kw.values) res)
    (ho : ∀ w, (n, w) ∉ ks.flatMap Kw.values) :
    (withRecv recv r out)[s.pos.length + kw.length]? = some (.expr d) ∧
      ∃ x, e = some x ∧ res[s.pos.length + kw.length]? = some (.expr x) :=
  kwonly_wrong s hwf hpo recv r hr ps ks hk d ds n e kw hd hkw order out res h hb ho

/-- **C14, order** (full claim): the argument expressions are evaluated in Python's order. -/
def C14Order : Prop :=
  ∀ (E : Type) (s : Sig E), s.Wf → ∀ (ps : List (Pos E)) (ks : List (Kw E)) (order : List E)
    (out res : List (Val E)), translateArgs s false ps ks = .ok (order, out) →
      Binds s (ps.flatMap Pos.values) (ks.flatMap Kw.values) res → order = pyOrder ps ks

/-- **C14, order fails**: for `def f(a, **kw)` the call `f(x=1, a=2)` evaluates 2 before 1. -/
theorem C14_order_fails : ¬ C14Order := by
  intro h
  have := h Nat ⟨[], ["a"], [], [], false, true⟩ ⟨by decide, by decide⟩ []
    [.named "x" 1, .named "a" 2] [2, 1] [.expr 2, .dict [("x", .expr 1)]]
    [.expr 2, .dict [("x", .expr 1)]] rfl
    { nodup := by simp [Kw.values]
      fits := by simp
      clash := by simp
      known := by simp
      positional := by
        intro i n hi
        cases i with
        | zero =>
          simp only [Sig.positional, List.nil_append, List.getElem?_cons_zero,
            Option.some.injEq] at hi
          subst hi
          exact ⟨_, rfl, Or.inr (Or.inl ⟨Nat.zero_le _, by simp, by simp [Kw.values]⟩)⟩
        | succ i => simp [Sig.positional] at hi
      kwonly := by simp
      rest := rfl }
  simp [pyOrder, Kw.ex] at this

/-- **C14, order**: every argument expression is evaluated exactly once, and in Python's order if
keywords for `**kwargs` come last. -/
theorem C14_order_partial (s : Sig E) (hwf : s.Wf) (hpo : s.posonly = []) (recv : Bool) (r : Val E)
    (hr : recv = true → s.pos ≠ []) (ps : List (Pos E)) (ks : List (Kw E))
    (hk : ∀ k ∈ ks, k.IsNamed) (order : List E) (out res : List (Val E))
    (h : translateArgs s recv ps ks = .ok (order, out))
    (hb : Binds s (withRecv recv r (ps.flatMap Pos.values)) (ks.flatMap Kw.values) res) :
    order.Perm (pyOrder ps ks) ∧
      (ks.Pairwise (fun a b => a.surplus s → b.surplus s) → order = pyOrder ps ks) :=
  order_perm s hwf hpo recv r hr ps ks hk order out res h hb

/-- Not vacuous: `def f(self, a, b=5, *args, **kw)`, call `o.f(1, *(2, 3), x=4)`. -/
example : translateArgs (⟨[], ["self", "a", "b"], [5], [], true, true⟩ : Sig Nat) true
    [.plain 1, .star 23 (some 2)] [.named "x" 4] =
      .ok ([1, 23, 4], [.expr 1, .item 23 0, .tuple [.item 23 1], .dict [("x", .expr 4)]]) := rfl

/-- Not vacuous: `def f(a, b=5)`, call `f(a=1)` is accepted by Python and gets the default value. -/
example : Binds (⟨[], ["a", "b"], [5], [], false, false⟩ : Sig Nat) [] [("a", .expr 1)]
      [.expr 1, .expr 5] ∧
    translateArgs (⟨[], ["a", "b"], [5], [], false, false⟩ : Sig Nat) false [] [.named "a" 1] =
      .ok ([1], [.expr 1, .expr 5]) := by
  refine ⟨?_, rfl⟩
  exact
    { nodup := by simp
      fits := by simp
      clash := by simp
      known := by simp [Sig.named]
      positional := by
        intro i n hi
        match i with
        | 0 =>
          simp only [Sig.positional, List.nil_append, List.getElem?_cons_zero,
            Option.some.injEq] at hi
          subst hi
          exact ⟨_, rfl, Or.inr (Or.inl ⟨Nat.zero_le _, by simp, by simp⟩)⟩
        | 1 =>
          simp only [Sig.positional, List.nil_append, List.getElem?_cons_succ,
            List.getElem?_cons_zero, Option.some.injEq] at hi
          subst hi
          exact ⟨_, rfl, Or.inr (Or.inr ⟨Nat.zero_le _, by simp, 5, rfl, rfl⟩)⟩
        | i + 2 => simp [Sig.positional] at hi
      kwonly := by simp
      rest := rfl }

/-! ### C55 -/

/-- **C55** (full claim): a thread is only created if all arguments have the types of the
parameters. -/
def C55 : Prop := ∀ checks : List Bool, threadArgCheck checks = true → ∀ c ∈ checks, c = true

/-- **C55 fails**: two arguments of wrong type pass. -/
theorem C55_fails : ¬ C55 := fun h => by
  have := h [false, false] rfl false (by simp)
  cases this

/-- **C55, exactly** (partial): the assertion holds iff the number of arguments of wrong type is
even. -/
theorem C55_parity_partial (checks : List Bool) :
    threadArgCheck checks = true ↔ checks.count false % 2 = 0 := threadArgCheck_parity checks

/-- **C55** (partial): it detects a wrong argument if there is exactly one, and accepts calls whose
arguments all have the right type. -/
theorem C55_single_partial (checks : List Bool) :
    (checks.count false = 1 → threadArgCheck checks = false) ∧
      ((∀ c ∈ checks, c = true) → threadArgCheck checks = true) := by
  constructor
  · intro h
    rw [← Bool.not_eq_true, C55_parity_partial]
    omega
  · intro h
    rw [C55_parity_partial, List.count_eq_zero_of_not_mem (fun hm => by cases h _ hm)]

example : threadArgCheck [true, false, true] = false ∧ threadArgCheck [true, true] = true := by decide

end Nagini.Args
