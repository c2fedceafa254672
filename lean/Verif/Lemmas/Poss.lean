/- Lemmas for C143. -/
import Verif.Model.Poss
import Verif.Lemmas.Prob

namespace Nagini.Poss

open Prob (Prod ploop bind_ne_fail bind_ok)

variable {σ : Type}

/-- Both executions end and the product runs along, or both use up the fuel. -/
def Agree (r q : Option σ) (p : Prod σ) : Prop :=
  (∃ x y, r = some x ∧ q = some y ∧ p = .ok (some x) (some y)) ∨ (r = none ∧ q = none ∧ p = .out)

theorem Agree.bind {r q : Option σ} {p : Prod σ} {f g : σ → Option σ}
    {k : Option σ → Option σ → Prod σ} (h : Agree r q p)
    (hk : ∀ x y, p = .ok (some x) (some y) → Agree (f x) (g y) (k (some x) (some y))) :
    Agree (r.bind f) (q.bind g) (p.bind k) := by
  rcases h with ⟨x, y, rfl, rfl, rfl⟩ | ⟨rfl, rfl, rfl⟩
  · exact hk x y rfl
  · exact .inr ⟨rfl, rfl, rfl⟩

/-- Two executions of a loop whose condition is equal at the beginning and after each iteration. -/
theorem loop_agree (c : σ → Bool) (b : σ → Option σ) (pb : Option σ → Option σ → Prod σ)
    (hb : ∀ x y, pb (some x) (some y) ≠ .fail → Agree (b x) (b y) (pb (some x) (some y)))
    (hc : ∀ x y x' y', pb (some x) (some y) = .ok (some x') (some y') → c x' = c y') :
    ∀ n x y, c x = c y → ploop n c pb (some x) (some y) ≠ .fail →
      Agree (loop n c b x) (loop n c b y) (ploop n c pb (some x) (some y)) := by
  intro n
  induction n with
  | zero => intro x y _ _; exact .inr ⟨rfl, rfl, rfl⟩
  | succ n ih =>
    intro x y hxy hf
    by_cases h : c x = true
    · have h' : c y = true := hxy ▸ h
      have e : ploop (n + 1) c pb (some x) (some y) =
          (pb (some x) (some y)).bind fun x'' y'' => ploop n c pb x'' y'' := by
        simp [ploop, Option.filter, h, h']
      rw [e] at hf ⊢
      simp only [loop, h, h', if_true]
      exact (hb x y (bind_ne_fail hf)).bind
        (fun x' y' hp => ih x' y' (hc _ _ _ _ hp) (bind_ok hf hp))
    · have h' : ¬ c y = true := hxy ▸ h
      simp only [Bool.not_eq_true] at h h'
      have e : ploop (n + 1) c pb (some x) (some y) = .ok (some x) (some y) := by
        simp [ploop, Option.filter, h, h']
      rw [e]
      simp only [loop, h, h', Bool.false_eq_true, if_false]
      exact .inl ⟨x, y, rfl, rfl, rfl⟩

variable (P : Prog σ)

theorem condLow_both {rec : Nat → Option σ → Option σ → Prod σ} {n : Nat} {c : σ → Bool} {x y : σ}
    (h : prodWith rec n (condLow c) (some x) (some y) ≠ .fail) :
    c x = c y ∧ prodWith rec n (condLow c) (some x) (some y) = .ok (some x) (some y) := by
  simp only [condLow, prodWith, Prod.bind] at h ⊢
  by_cases he : c x = c y
  · simp [he]
  · simp [he] at h

theorem condLow_both_eq {rec : Nat → Option σ → Option σ → Prod σ} {n : Nat} {c : σ → Bool}
    {x y : σ} : prodWith rec n (condLow c) (some x) (some y) =
      if c x = c y then .ok (some x) (some y) else .fail := by
  simp only [condLow, prodWith, Prod.bind]

theorem condLow_left {rec : Nat → Option σ → Option σ → Prod σ} {n : Nat} {c : σ → Bool} {x : σ} :
    prodWith rec n (condLow c) (some x) none = .fail := by
  simp [condLow, prodWith, Prod.bind]

theorem condLow_right {rec : Nat → Option σ → Option σ → Prod σ} {n : Nat} {c : σ → Bool} {x : σ} :
    prodWith rec n (condLow c) none (some x) = .fail := by
  simp [condLow, prodWith, Prod.bind]

/-- An execution that runs alone meets no loop and no call, thus it ends. -/
theorem alone_left (he : ∀ m, P.event m = true) {rp : Nat → Option σ → Option σ → Prod σ}
    {rr : Nat → σ → Option σ} (n : Nat) (p : Stmt σ) :
    ∀ x, prodWith rp n (tr P p) (some x) none ≠ .fail →
      ∃ x', runWith rr n p x = some x' ∧
        prodWith rp n (tr P p) (some x) none = .ok (some x') none := by
  induction p with
  | act f => intro x _; exact ⟨f x, rfl, rfl⟩
  | seq a b iha ihb =>
    intro x hf
    simp only [tr, prodWith, runWith] at hf ⊢
    obtain ⟨x', h1, h2⟩ := iha x (bind_ne_fail hf)
    obtain ⟨x'', h3, h4⟩ := ihb x' (bind_ok hf h2)
    exact ⟨x'', by simp [h1, h3], by rw [h2]; exact h4⟩
  | ite c a b iha ihb =>
    intro x hf
    simp only [tr, prodWith, runWith] at hf ⊢
    cases h : c x
    · simp only [h, Bool.false_eq_true, if_false] at hf ⊢
      exact ihb x hf
    · simp only [h, if_true] at hf ⊢
      exact iha x hf
  | «while» c b _ =>
    intro x hf
    simp only [tr] at hf
    rw [prodWith, condLow_left] at hf
    exact absurd rfl hf
  | forEach start next stop b _ =>
    intro x hf
    simp only [tr] at hf
    rw [prodWith] at hf
    have hf := bind_ok hf (x := some (start x)) (y := none) rfl
    rw [prodWith] at hf
    have hf := bind_ok hf (x := some (next (start x))) (y := none) rfl
    rw [prodWith, condLow_left] at hf
    exact absurd rfl hf
  | call m =>
    intro x hf
    simp [tr, he, prodWith, Prod.bind] at hf
  | check c => intro x _; exact ⟨x, rfl, rfl⟩

/-- The same for the second execution. -/
theorem alone_right (he : ∀ m, P.event m = true) {rp : Nat → Option σ → Option σ → Prod σ}
    {rr : Nat → σ → Option σ} (n : Nat) (p : Stmt σ) :
    ∀ x, prodWith rp n (tr P p) none (some x) ≠ .fail →
      ∃ x', runWith rr n p x = some x' ∧
        prodWith rp n (tr P p) none (some x) = .ok none (some x') := by
  induction p with
  | act f => intro x _; exact ⟨f x, rfl, rfl⟩
  | seq a b iha ihb =>
    intro x hf
    simp only [tr, prodWith, runWith] at hf ⊢
    obtain ⟨x', h1, h2⟩ := iha x (bind_ne_fail hf)
    obtain ⟨x'', h3, h4⟩ := ihb x' (bind_ok hf h2)
    exact ⟨x'', by simp [h1, h3], by rw [h2]; exact h4⟩
  | ite c a b iha ihb =>
    intro x hf
    simp only [tr, prodWith, runWith] at hf ⊢
    cases h : c x
    · simp only [h, Bool.false_eq_true, if_false] at hf ⊢
      exact ihb x hf
    · simp only [h, if_true] at hf ⊢
      exact iha x hf
  | «while» c b _ =>
    intro x hf
    simp only [tr] at hf
    rw [prodWith, condLow_right] at hf
    exact absurd rfl hf
  | forEach start next stop b _ =>
    intro x hf
    simp only [tr] at hf
    rw [prodWith] at hf
    have hf := bind_ok hf (x := none) (y := some (start x)) rfl
    rw [prodWith] at hf
    have hf := bind_ok hf (x := none) (y := some (next (start x))) rfl
    rw [prodWith, condLow_right] at hf
    exact absurd rfl hf
  | call m =>
    intro x hf
    simp [tr, he, prodWith, Prod.bind] at hf
  | check c => intro x _; exact ⟨x, rfl, rfl⟩

/-- Two executions of a checked statement end together. -/
theorem agree (he : ∀ m, P.event m = true) {rp : Nat → Option σ → Option σ → Prod σ}
    {rr : Nat → σ → Option σ}
    (hr : ∀ m x y, rp m (some x) (some y) ≠ .fail → Agree (rr m x) (rr m y) (rp m (some x) (some y)))
    (n : Nat) {p : Stmt σ} (hp : Checked p) :
    ∀ x y, prodWith rp n (tr P p) (some x) (some y) ≠ .fail →
      Agree (runWith rr n p x) (runWith rr n p y) (prodWith rp n (tr P p) (some x) (some y)) := by
  induction hp with
  | act f => intro x y _; exact .inl ⟨_, _, rfl, rfl, rfl⟩
  | seq _ _ iha ihb =>
    intro x y hf
    simp only [tr, prodWith, runWith] at hf ⊢
    exact (iha x y (bind_ne_fail hf)).bind fun x' y' hp => ihb x' y' (bind_ok hf hp)
  | ite ha hb iha ihb =>
    rename_i c a b
    intro x y hf
    simp only [tr, prodWith, runWith] at hf ⊢
    cases h : c x <;> cases h' : c y <;>
      simp only [h, h', if_true, if_false, Bool.false_eq_true] at hf ⊢
    · exact ihb x y hf
    · obtain ⟨y', h1, h2⟩ := alone_right P he (rr := rr) n a y (bind_ne_fail hf)
      have hf := bind_ok hf h2
      obtain ⟨x', h3, h4⟩ := alone_left P he (rr := rr) n b x (bind_ne_fail hf)
      exact .inl ⟨x', y', h3, h1, by rw [h2]; simp only [Prod.bind]; rw [h4]⟩
    · obtain ⟨x', h1, h2⟩ := alone_left P he (rr := rr) n a x (bind_ne_fail hf)
      have hf := bind_ok hf h2
      obtain ⟨y', h3, h4⟩ := alone_right P he (rr := rr) n b y (bind_ne_fail hf)
      exact .inl ⟨x', y', h1, h3, by rw [h2]; simp only [Prod.bind]; rw [h4]⟩
    · exact iha x y hf
  | «while» hb ih =>
    rename_i c b
    intro x y hf
    simp only [tr] at hf ⊢
    rw [prodWith] at hf ⊢
    obtain ⟨hc, hok⟩ := condLow_both (bind_ne_fail hf)
    have hf := bind_ok hf hok
    rw [hok]
    simp only [Prod.bind]
    rw [prodWith] at hf ⊢
    simp only [runWith]
    refine loop_agree c _ _ ?_ ?_ n x y hc hf
    · intro x y hf
      rw [prodWith] at hf ⊢
      refine (ih x y (bind_ne_fail hf)).bind fun x' y' hp => ?_
      have := bind_ok hf hp
      simp only [prodWith] at this ⊢
      by_cases hc : c x' = c y'
      · exact .inl ⟨x', y', rfl, rfl, by simp [hc]⟩
      · simp [hc] at this
    · intro x y x' y' h
      rw [prodWith] at h
      have hne : prodWith rp n (tr P b) (some x) (some y) ≠ .fail := by
        intro e; rw [e] at h; simp [Prod.bind] at h
      rcases ih x y hne with ⟨x1, y1, _, _, hp⟩ | ⟨_, _, hp⟩
      · rw [hp] at h
        simp only [Prod.bind, prodWith] at h
        by_cases hc : c x1 = c y1
        · simp only [hc, if_true, Prod.ok.injEq, Option.some.injEq] at h
          obtain ⟨rfl, rfl⟩ := h
          exact hc
        · simp [hc] at h
      · rw [hp] at h; simp [Prod.bind] at h
  | forEach hb ih =>
    rename_i start next stop b
    intro x y hf
    have e : prodWith rp n (tr P (.forEach start next stop b)) (some x) (some y) =
        (prodWith rp n (condLow fun s => !stop s) (some (next (start x)))
          (some (next (start y)))).bind (prodWith rp n (.while (fun s => !stop s)
            (.seq (tr P b) (.seq (.act next) (condLow fun s => !stop s))))) := rfl
    have eb : ∀ x y, prodWith rp n (.seq (tr P b) (.seq (.act next) (condLow fun s => !stop s)))
        (some x) (some y) = (prodWith rp n (tr P b) (some x) (some y)).bind fun x y =>
          prodWith rp n (condLow fun s => !stop s) (x.map next) (y.map next) := fun _ _ => rfl
    rw [e] at hf ⊢
    obtain ⟨hc, hok⟩ := condLow_both (bind_ne_fail hf)
    have hf := bind_ok hf hok
    rw [hok]
    simp only [Prod.bind]
    rw [prodWith] at hf ⊢
    simp only [runWith]
    refine loop_agree (fun s => !stop s) _ _ ?_ ?_ n _ _ hc hf
    · intro x y hf
      rw [eb] at hf ⊢
      have := (ih x y (bind_ne_fail hf)).bind (f := fun s => some (next s))
        (g := fun s => some (next s))
        (k := fun x y => prodWith rp n (condLow fun s => !stop s) (x.map next) (y.map next))
        fun x' y' hp => by
          have hf := bind_ok hf hp
          obtain ⟨_, hok⟩ := condLow_both hf
          exact .inl ⟨_, _, rfl, rfl, hok⟩
      simpa only [Option.map_eq_bind, Function.comp_def] using this
    · intro x y x' y' h
      rw [eb] at h
      have hne : prodWith rp n (tr P b) (some x) (some y) ≠ .fail := by
        intro e; rw [e] at h; simp [Prod.bind] at h
      rcases ih x y hne with ⟨x1, y1, _, _, hp⟩ | ⟨_, _, hp⟩
      · rw [hp] at h
        have h : prodWith rp n (condLow fun s => !stop s) (some (next x1)) (some (next y1)) = _ := h
        rw [condLow_both_eq] at h
        by_cases hc : (!stop (next x1)) = (!stop (next y1))
        · rw [if_pos hc] at h
          simp only [Prod.ok.injEq, Option.some.injEq] at h
          obtain ⟨rfl, rfl⟩ := h
          exact hc
        · rw [if_neg hc] at h; cases h
      · rw [hp] at h; simp [Prod.bind] at h
  | call m =>
    intro x y hf
    simp only [tr, he, if_true, prodWith, Prod.bind, runWith] at hf ⊢
    exact hr m x y hf
  | check c =>
    intro x y hf
    simp only [tr, prodWith, runWith] at hf ⊢
    by_cases hc : c x = c y
    · exact .inl ⟨x, y, rfl, rfl, by simp [hc]⟩
    · simp [hc] at hf

theorem call_agree (he : ∀ m, P.event m = true) (hb : ∀ m, Checked (P.body m)) (n : Nat) :
    ∀ m x y, callProd (bodies P) n m (some x) (some y) ≠ .fail →
      Agree (callRun P n m x) (callRun P n m y) (callProd (bodies P) n m (some x) (some y)) := by
  induction n with
  | zero => intro m x y _; exact .inr ⟨rfl, rfl, rfl⟩
  | succ n ih =>
    intro m x y hf
    exact agree P he ih n (hb m) x y hf

/-! ### Executions without secrets -/

/-- The product of two equal executions. -/
def Same (p : Prod σ) : Prop := (∃ x, p = .ok (some x) (some x)) ∨ p = .out

theorem ploop_same (c : σ → Bool) (pb : Option σ → Option σ → Prod σ)
    (hb : ∀ x, Same (pb (some x) (some x))) :
    ∀ n x, Same (ploop n c pb (some x) (some x)) := by
  intro n
  induction n with
  | zero => intro x; exact .inr rfl
  | succ n ih =>
    intro x
    cases h : c x
    · exact .inl ⟨x, by simp [ploop, Option.filter, h]⟩
    · have e : ploop (n + 1) c pb (some x) (some x) =
          (pb (some x) (some x)).bind fun x'' y'' => ploop n c pb x'' y'' := by
        simp [ploop, Option.filter, h]
      rw [e]
      rcases hb x with ⟨x', hx⟩ | hx
      · rw [hx]; exact ih x'
      · rw [hx]; exact .inr rfl

theorem same {rp : Nat → Option σ → Option σ → Prod σ}
    (hr : ∀ m x, Same (rp m (some x) (some x))) (n : Nat) (t : T σ) :
    ∀ x, Same (prodWith rp n t (some x) (some x)) := by
  induction t with
  | act f => intro x; exact .inl ⟨_, rfl⟩
  | seq a b iha ihb =>
    intro x
    simp only [prodWith]
    rcases iha x with ⟨x', h⟩ | h
    · rw [h]; exact ihb x'
    · rw [h]; exact .inr rfl
  | assertLow c => intro x; exact .inl ⟨x, by simp [prodWith]⟩
  | assertEvent => intro x; exact .inl ⟨x, rfl⟩
  | ite c a b iha ihb =>
    intro x
    simp only [prodWith]
    cases h : c x
    · simpa using ihb x
    · simpa using iha x
  | «while» c b ih => intro x; exact ploop_same c _ ih n x
  | call m => intro x; exact hr m x

theorem call_same (body : Nat → T σ) (n : Nat) :
    ∀ m x, Same (callProd body n m (some x) (some x)) := by
  induction n with
  | zero => intro m x; exact .inr rfl
  | succ n ih => intro m x; exact same ih n (body m) x

end Nagini.Poss
