/- Lemmas for C117. -/
import Verif.Model.Prob

namespace Nagini.Prob

variable {σ : Type}

/-- Both executions took the same decisions and the product ran along. -/
def Agree (r q : Res σ) (p : Prod σ) : Prop :=
  r.1 = q.1 ∧ ((∃ x y, r.2 = some x ∧ q.2 = some y ∧ p = .ok (some x) (some y)) ∨
    (r.2 = none ∧ q.2 = none ∧ p = .out))

theorem Agree.mk {x y : σ} {l m : List Nat} {p : Prod σ} (h : l = m)
    (hp : p = .ok (some x) (some y)) : Agree (l, some x) (m, some y) p :=
  ⟨h, .inl ⟨x, y, rfl, rfl, hp⟩⟩

theorem Agree.bind {r q : Res σ} {p : Prod σ} {f g : σ → Res σ}
    {k : Option σ → Option σ → Prod σ} (h : Agree r q p)
    (hk : ∀ x y, p = .ok (some x) (some y) → Agree (f x) (g y) (k (some x) (some y))) :
    Agree (r.bind f) (q.bind g) (p.bind k) := by
  obtain ⟨r1, r2⟩ := r
  obtain ⟨q1, q2⟩ := q
  obtain ⟨h1, h2⟩ := h
  simp only at h1 h2
  rcases h2 with ⟨x, y, rfl, rfl, rfl⟩ | ⟨rfl, rfl, rfl⟩
  · obtain ⟨e1, e2⟩ := hk x y rfl
    refine ⟨?_, ?_⟩
    · simp only [Res.bind, h1, e1]
    · simpa only [Res.bind, Prod.bind] using e2
  · exact ⟨by simpa only [Res.bind] using h1, .inr ⟨rfl, rfl, rfl⟩⟩

theorem bind_ne_fail {p : Prod σ} {k : Option σ → Option σ → Prod σ} (h : p.bind k ≠ .fail) :
    p ≠ .fail := by
  rintro rfl
  exact h rfl

theorem bind_ok {p : Prod σ} {k : Option σ → Option σ → Prod σ} {x y : Option σ}
    (h : p.bind k ≠ .fail) (hp : p = .ok x y) : k x y ≠ .fail := by
  subst hp
  exact h

theorem assertLow_eq {n : Nat} {e : σ → Nat} {x y : σ}
    (h : prod n (.assertLow e) (some x) (some y) ≠ .fail) :
    e x = e y ∧ prod n (.assertLow e) (some x) (some y) = .ok (some x) (some y) := by
  simp only [prod] at h ⊢
  by_cases he : e x = e y
  · simp [he]
  · simp [he] at h

theorem toNat_inj {a b : Bool} (h : a.toNat = b.toNat) : a = b := by
  cases a <;> cases b <;> simp_all

/-- Two executions of a loop whose condition is equal at the beginning and after each iteration. -/
theorem loop_agree (c : σ → Bool) (b : σ → Res σ) (pb : Option σ → Option σ → Prod σ)
    (hb : ∀ x y, pb (some x) (some y) ≠ .fail → Agree (b x) (b y) (pb (some x) (some y)))
    (hc : ∀ x y x' y', pb (some x) (some y) = .ok (some x') (some y') → c x' = c y') :
    ∀ n x y, c x = c y → ploop n c pb (some x) (some y) ≠ .fail →
      Agree (loop n c b x) (loop n c b y) (ploop n c pb (some x) (some y)) := by
  intro n
  induction n with
  | zero => intro x y _ _; exact ⟨rfl, .inr ⟨rfl, rfl, rfl⟩⟩
  | succ n ih =>
    intro x y hxy hf
    by_cases h : c x = true
    · have h' : c y = true := hxy ▸ h
      have e : ploop (n + 1) c pb (some x) (some y) =
          (pb (some x) (some y)).bind fun x'' y'' => ploop n c pb x'' y'' := by
        simp [ploop, Option.filter, h, h']
      rw [e] at hf ⊢
      have hl : ∀ z, c z = true → loop (n + 1) c b z =
          Res.bind ([1], some z) fun s => (b s).bind (loop n c b) := by
        intro z hz; simp [loop, hz]
      rw [hl x h, hl y h']
      have := (hb x y (bind_ne_fail hf)).bind (f := loop n c b) (g := loop n c b)
        (k := fun x'' y'' => ploop n c pb x'' y'')
        (fun x' y' hp => ih x' y' (hc _ _ _ _ hp) (bind_ok hf hp))
      obtain ⟨h1, h2⟩ := this
      refine ⟨?_, ?_⟩
      · simp only [Res.bind, List.cons_append, List.nil_append] at h1 ⊢
        rw [h1]
      · exact h2
    · have h' : ¬ c y = true := hxy ▸ h
      simp only [Bool.not_eq_true] at h h'
      have e : ploop (n + 1) c pb (some x) (some y) = .ok (some x) (some y) := by
        simp [ploop, Option.filter, h, h']
      rw [e]
      simp only [loop, h, h', Bool.false_eq_true, if_false]
      exact Agree.mk rfl rfl

theorem switch_eq {n : Nat} {d : σ → Nat} {m : Nat → T σ} {x y : σ} (h : d x = d y) :
    prod n (.switch d m) (some x) (some y) = prod n (m (d x)) (some x) (some y) := by
  simp [prod, h]

theorem ite_eq {n : Nat} {c : σ → Bool} {a b : T σ} {x y : σ} (h : c x = c y) :
    prod n (T.ite c a b) (some x) (some y) =
      if c x then prod n a (some x) (some y) else prod n b (some x) (some y) := by
  unfold T.ite
  rw [switch_eq (by simp [h])]
  cases c x <;> simp

theorem step {l m : List Nat} {x y : σ} {f g : σ → Res σ} {p : Prod σ} (h : l = m)
    (hp : Agree (f x) (g y) p) : Agree (Res.bind (l, some x) f) (Res.bind (m, some y) g) p := by
  obtain ⟨h1, h2⟩ := hp
  refine ⟨?_, h2⟩
  simp only [Res.bind, h, h1]

theorem agree {p : Stmt σ} (hp : Checked p) (n : Nat) :
    ∀ x y, prod n (tr p) (some x) (some y) ≠ .fail →
      Agree (run n p x) (run n p y) (prod n (tr p) (some x) (some y)) := by
  induction hp with
  | act f => intro x y _; exact Agree.mk rfl rfl
  | seq _ _ iha ihb =>
    intro x y hf
    simp only [tr, prod, run] at hf ⊢
    exact (iha x y (bind_ne_fail hf)).bind fun x' y' hp => ihb x' y' (bind_ok hf hp)
  | ite _ _ iha ihb =>
    rename_i c a b _ _
    intro x y hf
    simp only [tr] at hf ⊢
    rw [prod] at hf ⊢
    obtain ⟨hc, hok⟩ := assertLow_eq (bind_ne_fail hf)
    have hc := toNat_inj hc
    have hf := bind_ok hf hok
    rw [hok]
    show Agree _ _ (prod n (T.ite _ _ _) _ _)
    rw [ite_eq hc] at hf ⊢
    refine step (by simp [hc]) ?_
    cases h : c x
    · rw [← hc, h]
      simp only [h, Bool.false_eq_true, if_false] at hf ⊢
      exact ihb x y hf
    · rw [← hc, h]
      simp only [h, if_true] at hf ⊢
      exact iha x y hf
  | circuit _ ih =>
    rename_i conj first rest last _
    intro x y hf
    simp only [tr] at hf ⊢
    rw [prod] at hf ⊢
    obtain ⟨hc, hok⟩ := assertLow_eq (bind_ne_fail hf)
    have hc := toNat_inj hc
    have hf := bind_ok hf hok
    rw [hok]
    show Agree _ _ (prod n (T.ite _ _ _) _ _)
    have hc' : (first x == conj) = (first y == conj) := by rw [hc]
    rw [ite_eq (c := fun s => first s == conj) hc'] at hf ⊢
    refine step (by simp [hc]) ?_
    by_cases h : first x = conj
    · have h' : first y = conj := hc ▸ h
      have hb : (first x == conj) = true := by simp [h]
      rw [if_pos h, if_pos h']
      simp only [hb, if_true] at hf ⊢
      rw [prod] at hf ⊢
      have e : ∀ r : Res σ, r = r.bind fun s => ([], some s) := by
        rintro ⟨l, _ | s⟩ <;> simp [Res.bind]
      rw [e (run n rest x), e (run n rest y)]
      refine (ih x y (bind_ne_fail hf)).bind fun x' y' hp => ?_
      obtain ⟨_, hok'⟩ := assertLow_eq (bind_ok hf hp)
      exact Agree.mk rfl hok'
    · have h' : ¬ first y = conj := hc ▸ h
      have hb : (first x == conj) = false := by simp [h]
      rw [if_neg h, if_neg h']
      simp only [hb, Bool.false_eq_true, if_false]
      exact Agree.mk rfl rfl
  | «while» _ ih =>
    rename_i c b _
    intro x y hf
    simp only [tr] at hf ⊢
    rw [prod] at hf ⊢
    obtain ⟨hc, hok⟩ := assertLow_eq (bind_ne_fail hf)
    have hc := toNat_inj hc
    have hf := bind_ok hf hok
    rw [hok]
    show Agree _ _ (prod n (T.while _ _) _ _)
    rw [prod] at hf ⊢
    simp only [run]
    refine loop_agree c _ _ ?_ ?_ n x y hc hf
    · intro x y hf
      rw [prod] at hf ⊢
      refine (ih x y (bind_ne_fail hf)).bind fun x' y' hp => ?_
      obtain ⟨_, hok'⟩ := assertLow_eq (bind_ok hf hp)
      exact Agree.mk rfl hok'
    · intro x y x' y' h
      rw [prod] at h
      have hf : (prod n (tr b) (some x) (some y)).bind
          (prod n (.assertLow fun s => (c s).toNat)) ≠ .fail := by rw [h]; simp
      obtain ⟨_, ⟨x1, y1, _, _, h2⟩ | ⟨_, _, h2⟩⟩ := ih x y (bind_ne_fail hf)
      · obtain ⟨hl, hok'⟩ := assertLow_eq (bind_ok hf h2)
        rw [h2] at h
        have h : prod n (.assertLow fun s => (c s).toNat) (some x1) (some y1) =
          .ok (some x') (some y') := h
        rw [hok'] at h
        injection h with h1 h2
        injection h1 with h1
        injection h2 with h2
        subst h1 h2
        exact toNat_inj hl
      · rw [h2] at h
        cases h
  | forEach _ ih =>
    rename_i start next stop b _
    intro x y hf
    have e : prod n (tr (.forEach start next stop b)) (some x) (some y) =
        (prod n (.assertLow fun s => (!stop s).toNat) (some (next (start x)))
          (some (next (start y)))).bind (prod n (.while (fun s => !stop s)
          (.seq (tr b) (.seq (.act next) (.assertLow fun s => (!stop s).toNat))))) := by
      simp only [tr]
      rw [prod, prod, Prod.bind, prod, prod, Prod.bind, prod]
      rfl
    rw [e] at hf ⊢
    obtain ⟨hc, hok⟩ := assertLow_eq (bind_ne_fail hf)
    have hc := toNat_inj hc
    have hf := bind_ok hf hok
    rw [hok]
    show Agree _ _ (prod n (T.while _ _) _ _)
    rw [prod] at hf ⊢
    simp only [run]
    refine loop_agree (fun s => !stop s) _ _ ?_ ?_ n _ _ hc hf
    · intro x y hf
      rw [prod] at hf ⊢
      refine (ih x y (bind_ne_fail hf)).bind fun x' y' hp => ?_
      have hf := bind_ok hf hp
      rw [prod] at hf ⊢
      have hf : prod n (.assertLow fun s => (!stop s).toNat) (some (next x')) (some (next y')) ≠
        .fail := hf
      obtain ⟨_, hok'⟩ := assertLow_eq hf
      exact Agree.mk rfl hok'
    · intro x y x' y' h
      rw [prod] at h
      have hf : (prod n (tr b) (some x) (some y)).bind
          (prod n (.seq (.act next) (.assertLow fun s => (!stop s).toNat))) ≠ .fail := by
        rw [h]; simp
      obtain ⟨_, ⟨x1, y1, _, _, h2⟩ | ⟨_, _, h2⟩⟩ := ih x y (bind_ne_fail hf)
      · have hf := bind_ok hf h2
        rw [h2] at h
        have h : prod n (.seq (.act next) (.assertLow fun s => (!stop s).toNat)) (some x1)
          (some y1) = .ok (some x') (some y') := h
        rw [prod] at hf h
        have hf : prod n (.assertLow fun s => (!stop s).toNat) (some (next x1)) (some (next y1)) ≠
          .fail := hf
        have h : prod n (.assertLow fun s => (!stop s).toNat) (some (next x1)) (some (next y1)) =
          .ok (some x') (some y') := h
        obtain ⟨hl, hok'⟩ := assertLow_eq hf
        rw [hok'] at h
        injection h with h1 h2
        injection h1 with h1
        injection h2 with h2
        subst h1 h2
        exact toNat_inj hl
      · rw [h2] at h
        cases h
  | call _ ih =>
    rename_i cls m _
    intro x y hf
    simp only [tr] at hf ⊢
    rw [prod] at hf ⊢
    obtain ⟨hc, hok⟩ := assertLow_eq (bind_ne_fail hf)
    have hf := bind_ok hf hok
    rw [hok]
    show Agree _ _ (prod n (T.switch _ _) _ _)
    rw [switch_eq hc] at hf ⊢
    refine step (by simp [hc]) ?_
    rw [← hc]
    exact ih _ x y hf
  | comp =>
    rename_i k f
    intro x y hf
    simp only [tr, Option.isNone_none, if_true] at hf ⊢
    rw [prod] at hf ⊢
    obtain ⟨hc, hok⟩ := assertLow_eq (bind_ne_fail hf)
    rw [hok]
    exact Agree.mk (by simp [hc]) rfl
  | check =>
    intro x y hf
    obtain ⟨_, hok⟩ := assertLow_eq hf
    exact Agree.mk rfl hok

/-- Two executions from the same state stay together. -/
def Together (p : Prod σ) : Prop := p = .out ∨ ∃ x, p = .ok x x

theorem Together.bind {p : Prod σ} {k : Option σ → Option σ → Prod σ} (h : Together p)
    (hk : ∀ x, Together (k x x)) : Together (p.bind k) := by
  rcases h with rfl | ⟨x, rfl⟩
  · exact .inl rfl
  · exact hk x

theorem ploop_together (c : σ → Bool) (b : Option σ → Option σ → Prod σ)
    (hb : ∀ x, Together (b x x)) : ∀ n x, Together (ploop n c b x x) := by
  intro n
  induction n with
  | zero => intro x; exact .inl rfl
  | succ n ih =>
    intro x
    simp only [ploop]
    split
    · exact .inr ⟨x, rfl⟩
    · exact (hb _).bind fun z => ih _

theorem together (t : T σ) (n : Nat) : ∀ x, Together (prod n t x x) := by
  induction t with
  | act f => intro x; exact .inr ⟨_, rfl⟩
  | seq a b iha ihb => intro x; exact (iha x).bind ihb
  | assertLow e =>
    intro x
    cases x with
    | none => exact .inr ⟨_, rfl⟩
    | some x => exact .inr ⟨some x, by simp [prod]⟩
  | switch d m ih =>
    intro x
    cases x with
    | none => exact .inr ⟨_, rfl⟩
    | some x => rw [switch_eq rfl]; exact ih _ _
  | «while» c b ih => intro x; rw [prod]; exact ploop_together c _ ih n x

end Nagini.Prob
