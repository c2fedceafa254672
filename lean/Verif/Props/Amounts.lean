import Verif.Lemmas.Amounts

/-!
C93: permission amounts denote the rational number that is written.
-/
set_option linter.unusedVariables false
namespace Nagini.Amounts

/-- The translation of an amount is accepted by Viper's type rules as a permission. -/
def IsPerm (n : Node) : Prop := n.wellTyped ∧ n.typ = .perm

/-- **C93**: an amount whose translation is a well-typed permission has the value that is written, in
every state; it is undefined exactly if a divisor is zero. -/
theorem C93_value (e : Amount) (n : Node) (h : translatePerm e = some n) (hp : IsPerm n) (ρ : Env) :
    n.eval ρ = pyValue ρ e := by
  obtain ⟨n', h', -, -, hv⟩ := supported_good e ((inversion e).1 n h hp.1 hp.2)
  rw [h'] at h
  cases h
  exact hv ρ

/-- **C93** (full claim): every accepted amount is translated to a well-typed permission with the value
that is written. -/
def C93 : Prop :=
  ∀ (e : Amount) (n : Node), translatePerm e = some n → IsPerm n ∧ ∀ ρ, n.eval ρ = pyValue ρ e

/-- **C93, exactly** (partial): the amounts that are translated to well-typed permissions are those of
the grammar `Supported`. -/
theorem C93_iff_partial (e : Amount) :
    (∃ n, translatePerm e = some n ∧ IsPerm n) ↔ Supported e := by
  constructor
  · rintro ⟨n, h, hp⟩
    exact (inversion e).1 n h hp.1 hp.2
  · intro h
    obtain ⟨n, hn, ht, hw, -⟩ := supported_good e h
    exact ⟨n, hn, hw, ht⟩

/-- **C93** (partial: amounts of the grammar): they are accepted with the value that is written. -/
theorem C93_accepted_partial (e : Amount) (h : Supported e) :
    ∃ n, translatePerm e = some n ∧ IsPerm n ∧ ∀ ρ, n.eval ρ = pyValue ρ e := by
  obtain ⟨n, hn, ht, hw, hv⟩ := supported_good e h
  exact ⟨n, hn, ⟨hw, ht⟩, hv⟩

/-- **C93, where it fails**: whatever is divided, scaled or added to, an amount that starts with a
variable is accepted but is not a permission: it stays a reference. -/
theorem C93_variable_fails (x : Nat) (r : Amount) :
    ∃ n, translatePerm (.bin .div (.name x) r) = some n ∧ ¬ IsPerm n :=
  ⟨.permDiv (.refVar x) (.ofInt r), rfl, fun h => by cases h.1.2.2.1⟩

/-- **C93, where it fails**: a field or call by itself, or added to a fraction, stays an integer. -/
theorem C93_integer_fails (x : Nat) (r : Amount) (m : Node) (hr : translatePerm r = some m) :
    (∃ n, translatePerm (.attr x) = some n ∧ ¬ IsPerm n) ∧
    (∃ n, translatePerm (.bin .add (.attr x) r) = some n ∧ ¬ IsPerm n) :=
  ⟨⟨_, rfl, fun h => by cases h.2⟩,
    ⟨.permAdd (.ofInt (.attr x)) m, by simp [translatePerm, hr], fun h => by cases h.1.2.2.1⟩⟩

/-- **C93**: the full claim fails, e.g. for `n / 10`. -/
theorem C93_fails : ¬ C93 := by
  intro h
  obtain ⟨n, hn, hp⟩ := C93_variable_fails 0 (.const 10)
  exact hp (h _ n hn).1

/-- `2 * 1/3 + self.f * 1/(n - 1)`: its translation and value for `self.f = 2` and `n = 7`. -/
example :
    let e : Amount := .bin .add (.bin .div (.bin .mul (.const 2) (.const 1)) (.const 3))
      (.bin .mul (.attr 0) (.bin .div (.const 1) (.bin .sub (.name 0) (.const 1))))
    Supported e ∧ pyValue ⟨fun _ => 7, fun _ => 0, fun _ => 2⟩ e = some 1 := by
  refine ⟨.add (.frac (.mul (.const _) (.const _)) (.const _))
    (.scaleL (.attr 0) (.frac (.const _) (.sub (.name _) (.const _))) (by simp)), ?_⟩
  decide +kernel

/-- `1/2 - 1/n` is undefined for `n = 0`, before and after translation. -/
example : ∃ n, translatePerm (.bin .sub (.bin .div (.const 1) (.const 2)) (.bin .div (.const 1) (.name 0)))
    = some n ∧ IsPerm n ∧ n.eval ⟨fun _ => 0, fun _ => 0, fun _ => 0⟩ = none := by
  obtain ⟨n, hn, hp, hv⟩ := C93_accepted_partial _
    (.sub (.frac (.const 1) (.const 2)) (.frac (.const 1) (.name 0)))
  exact ⟨n, hn, hp, (hv _).trans (by decide +kernel)⟩

end Nagini.Amounts
