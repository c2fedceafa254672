import Verif.Spec.Deps
import Mathlib.Data.Fintype.Basic
import Mathlib.Data.Fintype.EquivFin
import Mathlib.Data.Finset.Card
import Mathlib.Order.WellFounded
import Mathlib.Data.Fintype.Order
set_option linter.unusedVariables false
set_option linter.unusedSimpArgs false
namespace Nagini.Deps
variable {N : Nat} {deps : Fin N → List (Dep N)}

/-! ### Completeness of the result -/

/-- Everything below `a` (under the conditions `p`) has been handled. -/
def Hd (deps : Fin N → List (Dep N)) (res : List (Dep N)) : Nat → List Nat → Fin N → Prop
  | 0, _, _ => False
  | n + 1, p, a => ∀ e ∈ deps a,
      (e.conds = [] → e ∈ res ∨ ({ e with conds := p } ∈ res ∧ Hd deps res n p e.target)) ∧
      (e.conds ≠ [] → Hd deps res n (p ++ e.conds) e.target)

theorem Hd.mono {res res' : List (Dep N)} (hs : res ⊆ res') {n p a} (h : Hd deps res n p a) :
    Hd deps res' n p a := by
  induction n generalizing p a with
  | zero => exact h
  | succ n ih =>
    intro e he
    refine ⟨fun hc => ?_, fun hc => ih ((h e he).2 hc)⟩
    rcases (h e he).1 hc with h1 | ⟨h1, h2⟩
    · exact .inl (hs h1)
    · exact .inr ⟨hs h1, ih h2⟩

/-- Entries of the result stem from unconditional dependencies. -/
def Orig (deps : Fin N → List (Dep N)) (res : List (Dep N)) : Prop :=
  ∀ e ∈ res, ∃ a, ∃ d ∈ deps a, d.conds = [] ∧ d.ref = e.ref

/-- Unconditional entries not in `S` have been handled. -/
def K (deps : Fin N → List (Dep N)) (res S : List (Dep N)) : Prop :=
  ∀ e ∈ res, e.conds = [] → e ∉ S → ∃ n, Hd deps res n [] e.target

theorem cond_not_mem (hu : RefsConsistent deps) {res : List (Dep N)} (ho : Orig deps res)
    {a d} (hd : d ∈ deps a) (hc : d.conds ≠ []) : d ∉ res := by
  intro h
  obtain ⟨b, e, he, h1, h2⟩ := ho d h
  exact hu b a e d he hd h1 hc h2

theorem loop_spec (hu : RefsConsistent deps)
    {rec : Fin N → List Nat → List (Dep N) → Option (List (Dep N))} {n : Nat}
    (hrec : ∀ a p res r, rec a p res = some r → Orig deps res →
      res ⊆ r ∧ Orig deps r ∧ (∀ S, K deps res S → K deps r S) ∧ Hd deps r n p a)
    (p : List Nat) (ds : List (Dep N)) : ∀ (res r : List (Dep N)),
    (∀ d ∈ ds, ∃ a, d ∈ deps a) → loop rec p ds res = some r → Orig deps res →
    res ⊆ r ∧ Orig deps r ∧ (∀ S, K deps res S → K deps r S) ∧
      ∀ e ∈ ds, (e.conds = [] → e ∈ r ∨ ({ e with conds := p } ∈ r ∧ Hd deps r n p e.target)) ∧
        (e.conds ≠ [] → Hd deps r n (p ++ e.conds) e.target) := by
  induction ds with
  | nil =>
    intro res r _ h ho
    rw [loop] at h
    cases h
    exact ⟨fun _ h => h, ho, fun _ h => h, by simp⟩
  | cons d ds ih =>
    intro res r hin h ho
    have hin' : ∀ d ∈ ds, ∃ a, d ∈ deps a := fun d hd => hin d (by simp [hd])
    obtain ⟨a, hda⟩ := hin d (by simp)
    rw [loop] at h
    split at h
    · rename_i hm
      obtain ⟨i1, i2, i3, i4⟩ := ih res r hin' h ho
      refine ⟨i1, i2, i3, fun e he => ?_⟩
      rcases List.mem_cons.1 he with rfl | he
      · exact ⟨fun _ => .inl (i1 hm), fun hc => absurd hm (cond_not_mem hu ho hda hc)⟩
      · exact i4 e he
    · rename_i hm
      split at h
      · rename_i hc
        cases hr : rec d.target (p ++ d.conds) res with
        | none => rw [hr] at h; cases h
        | some r1 =>
          rw [hr] at h
          obtain ⟨j1, j2, j3, j4⟩ := hrec _ _ _ _ hr ho
          obtain ⟨i1, i2, i3, i4⟩ := ih r1 r hin' h j2
          refine ⟨fun x hx => i1 (j1 hx), i2, fun S hS => i3 S (j3 S hS), fun e he => ?_⟩
          rcases List.mem_cons.1 he with rfl | he
          · exact ⟨fun h0 => absurd h0 hc, fun _ => j4.mono i1⟩
          · exact i4 e he
      · rename_i hc
        have hc : d.conds = [] := Classical.byContradiction fun h => hc h
        cases hr : rec d.target p ({ d with conds := p } :: res) with
        | none => rw [hr] at h; cases h
        | some r1 =>
          rw [hr] at h
          have ho1 : Orig deps ({ d with conds := p } :: res) := by
            intro e he
            rcases List.mem_cons.1 he with rfl | he
            · exact ⟨a, d, hda, hc, rfl⟩
            · exact ho e he
          obtain ⟨j1, j2, j3, j4⟩ := hrec _ _ _ _ hr ho1
          obtain ⟨i1, i2, i3, i4⟩ := ih r1 r hin' h j2
          refine ⟨fun x hx => i1 (j1 (List.mem_cons_of_mem _ hx)), i2, fun S hS => i3 S ?_,
            fun e he => ?_⟩
          · have hK : K deps ({ d with conds := p } :: res) ({ d with conds := p } :: S) := by
              intro e he he0 heS
              rcases List.mem_cons.1 he with rfl | he
              · exact absurd (List.mem_cons_self) heS
              · obtain ⟨n, hn⟩ := hS e he he0 (fun h => heS (List.mem_cons_of_mem _ h))
                exact ⟨n, hn.mono (fun x hx => List.mem_cons_of_mem _ hx)⟩
            have hK' := j3 _ hK
            intro e he he0 heS
            by_cases hx : e = { d with conds := p }
            · subst hx
              simp only [] at he0
              subst he0
              exact ⟨n, j4⟩
            · exact hK' e he he0 (by
                intro h
                rcases List.mem_cons.1 h with h | h
                · exact hx h
                · exact heS h)
          · rcases List.mem_cons.1 he with rfl | he
            · exact ⟨fun _ => .inr ⟨i1 (j1 List.mem_cons_self), j4.mono i1⟩, fun h => absurd hc h⟩
            · exact i4 e he

theorem addAll_spec (hu : RefsConsistent deps) (n : Nat) : ∀ a p res r,
    addAll deps n a p res = some r → Orig deps res →
      res ⊆ r ∧ Orig deps r ∧ (∀ S, K deps res S → K deps r S) ∧ Hd deps r n p a := by
  induction n with
  | zero => intro a p res r h; cases h
  | succ n ih =>
    intro a p res r h ho
    rw [addAll] at h
    obtain ⟨i1, i2, i3, i4⟩ := loop_spec hu ih p (deps a) res r (fun d hd => ⟨a, hd⟩) h ho
    exact ⟨i1, i2, i3, i4⟩

theorem needs_of_hd {res : List (Dep N)} {D : Nat → Prop} {defd : Nat → Nat → Prop}
    (hK : K deps res []) (hp : Passes res D defd) {a cs d} (h : Needs deps a cs d) :
    ∀ n p, Hd deps res n p a → (∀ c ∈ p, D c) → (∀ c ∈ cs, D c) → defd d.ref d.mod := by
  induction h with
  | @direct a d hd hc =>
    intro n p hh hD _
    cases n with
    | zero => exact hh.elim
    | succ n =>
      rcases (hh d hd).1 hc with h1 | ⟨h1, _⟩
      · exact hp d h1 (by rw [hc]; simp)
      · exact hp { d with conds := p } h1 hD
  | @step a e cs d he _ ih =>
    intro n p hh hD hcs
    cases n with
    | zero => exact hh.elim
    | succ n =>
      by_cases hc : e.conds = []
      · rcases (hh e he).1 hc with h1 | ⟨_, h2⟩
        · obtain ⟨m, hm⟩ := hK e h1 hc (by simp)
          exact ih m [] hm (by simp) (fun c h => hcs c (by simp [h]))
        · exact ih n p h2 hD (fun c h => hcs c (by simp [h]))
      · refine ih n _ ((hh e he).2 hc) ?_ (fun c h => hcs c (by simp [h]))
        intro c h
        rcases List.mem_append.1 h with h | h
        · exact hD c h
        · exact hcs c (by simp [h])

/-! ### Soundness: nothing superfluous -/

theorem loop_sound {root : Fin N} {rec : Fin N → List Nat → List (Dep N) → Option (List (Dep N))}
    {p : List Nat} {a : Fin N}
    (hrec : ∀ b p res r, rec b p res = some r →
      (∀ cs d, Needs deps b cs d → Needs deps root (p ++ cs) d) →
      (∀ e ∈ res, Needs deps root e.conds { e with conds := [] }) →
      ∀ e ∈ r, Needs deps root e.conds { e with conds := [] })
    (hctx : ∀ cs d, Needs deps a cs d → Needs deps root (p ++ cs) d)
    (ds : List (Dep N)) (hds : ∀ d ∈ ds, d ∈ deps a) : ∀ res r, loop rec p ds res = some r →
      (∀ e ∈ res, Needs deps root e.conds { e with conds := [] }) →
      ∀ e ∈ r, Needs deps root e.conds { e with conds := [] } := by
  induction ds with
  | nil => intro res r h hr; rw [loop] at h; cases h; exact hr
  | cons d ds ih =>
    have ih := ih fun d hd => hds d (by simp [hd])
    have hd := hds d (by simp)
    intro res r h hr
    rw [loop] at h
    split at h
    · exact ih res r h hr
    · split at h
      · cases hrr : rec d.target (p ++ d.conds) res with
        | none => rw [hrr] at h; cases h
        | some r1 =>
          rw [hrr] at h
          refine ih r1 r h (hrec _ _ _ _ hrr ?_ hr)
          intro cs x hx
          rw [List.append_assoc]
          exact hctx _ _ (.step hd hx)
      · rename_i hc
        have hc : d.conds = [] := Classical.byContradiction fun h => hc h
        cases hrr : rec d.target p ({ d with conds := p } :: res) with
        | none => rw [hrr] at h; cases h
        | some r1 =>
          rw [hrr] at h
          refine ih r1 r h (hrec _ _ _ _ hrr ?_ ?_)
          · intro cs x hx
            have := hctx _ _ (.step hd hx)
            rwa [hc] at this
          · intro e he
            rcases List.mem_cons.1 he with rfl | he
            · have := hctx [] d (.direct hd hc)
              rw [List.append_nil] at this
              have e : ({ d with conds := [] } : Dep N) = d := by rw [← hc]
              simpa [e] using this
            · exact hr e he

theorem addAll_sound {root : Fin N} (n : Nat) : ∀ a p res r, addAll deps n a p res = some r →
    (∀ cs d, Needs deps a cs d → Needs deps root (p ++ cs) d) →
    (∀ e ∈ res, Needs deps root e.conds { e with conds := [] }) →
    ∀ e ∈ r, Needs deps root e.conds { e with conds := [] } := by
  induction n with
  | zero => intro a p res r h; cases h
  | succ n ih =>
    intro a p res r h hctx hr
    exact loop_sound ih hctx (deps a) (fun _ h => h) res r h hr

/-! ### Divergence -/

theorem hd_step {res : List (Dep N)} (hK : K deps res []) {a b} (hab : DepEdge deps a b) {n p}
    (h : Hd deps res n p a) : ∃ m q, Hd deps res m q b := by
  cases n with
  | zero => exact h.elim
  | succ n =>
    obtain ⟨e, he, rfl⟩ := hab
    by_cases hc : e.conds = []
    · rcases (h e he).1 hc with h1 | ⟨_, h2⟩
      · obtain ⟨m, hm⟩ := hK e h1 hc (by simp)
        exact ⟨m, [], hm⟩
      · exact ⟨n, p, h2⟩
    · exact ⟨n, _, (h e he).2 hc⟩

theorem hd_reach {res : List (Dep N)} (hK : K deps res []) {a b}
    (hab : Relation.ReflTransGen (DepEdge deps) a b) (h : ∃ n p, Hd deps res n p a) :
    ∃ m q, Hd deps res m q b := by
  induction hab with
  | refl => exact h
  | tail _ hs ih =>
    obtain ⟨m, q, hm⟩ := ih
    exact hd_step hK hs hm

theorem hd_no_cycle {res : List (Dep N)} (n : Nat) : ∀ p a,
    Relation.TransGen (CondEdge deps) a a → ¬ Hd deps res n p a := by
  induction n with
  | zero => intro p a _ h; exact h
  | succ n ih =>
    intro p a hc h
    obtain ⟨b, hb, hb'⟩ := Relation.TransGen.head'_iff.1 hc
    obtain ⟨e, he, rfl, hec⟩ := id hb
    exact ih _ _ (Relation.TransGen.tail' hb' hb) ((h e he).2 hec)

/-! ### Termination -/

theorem addAll_mono {n : Nat} : ∀ {k a p res r}, n ≤ k → addAll deps n a p res = some r →
    addAll deps k a p res = some r := by
  induction n with
  | zero => intro k a p res r _ h; cases h
  | succ n ih =>
    intro k a p res r hk h
    obtain ⟨k, rfl⟩ : ∃ k', k = k' + 1 := ⟨k - 1, by omega⟩
    rw [addAll] at h ⊢
    generalize deps a = ds at h
    induction ds generalizing res with
    | nil => exact h
    | cons d ds ihd =>
      rw [loop] at h ⊢
      split at h
      · rename_i hm; rw [if_pos hm]; exact ihd h
      · rename_i hm
        rw [if_neg hm]
        split at h
        · rename_i hc
          rw [if_pos hc]
          cases hr : addAll deps n d.target (p ++ d.conds) res with
          | none => rw [hr] at h; cases h
          | some r1 => rw [hr] at h; rw [ih (by omega) hr]; exact ihd h
        · rename_i hc
          rw [if_neg hc]
          cases hr : addAll deps n d.target p ({ d with conds := p } :: res) with
          | none => rw [hr] at h; cases h
          | some r1 => rw [hr] at h; rw [ih (by omega) hr]; exact ihd h

/-- Fuel for a list of dependencies from fuel for each. -/
theorem loop_fuel {Q : List (Dep N) → Prop} {p : List Nat} (ds : List (Dep N))
    (h1 : ∀ d ∈ ds, d.conds ≠ [] → ∀ res, Q res →
      ∃ n r, addAll deps n d.target (p ++ d.conds) res = some r ∧ Q r)
    (h2 : ∀ d ∈ ds, d.conds = [] → ∀ res, Q res → d ∉ res →
      ∃ n r, addAll deps n d.target p ({ d with conds := p } :: res) = some r ∧ Q r) :
    ∀ res, Q res → ∃ n r, loop (addAll deps n) p ds res = some r ∧ Q r := by
  have mono : ∀ (ds : List (Dep N)) {n k res r}, n ≤ k → loop (addAll deps n) p ds res = some r →
      loop (addAll deps k) p ds res = some r := by
    intro ds
    induction ds with
    | nil => intro n k res r _ h; exact h
    | cons d ds ihd =>
      intro n k res r hk h
      rw [loop] at h ⊢
      split at h
      · rename_i hm; rw [if_pos hm]; exact ihd hk h
      · rename_i hm
        rw [if_neg hm]
        split at h
        · rename_i hc
          rw [if_pos hc]
          cases hr : addAll deps n d.target (p ++ d.conds) res with
          | none => rw [hr] at h; cases h
          | some r1 => rw [hr] at h; rw [addAll_mono hk hr]; exact ihd hk h
        · rename_i hc
          rw [if_neg hc]
          cases hr : addAll deps n d.target p ({ d with conds := p } :: res) with
          | none => rw [hr] at h; cases h
          | some r1 => rw [hr] at h; rw [addAll_mono hk hr]; exact ihd hk h
  induction ds with
  | nil => intro res hQ; exact ⟨0, res, rfl, hQ⟩
  | cons d ds ih =>
    intro res hQ
    have ih := ih (fun d hd => h1 d (by simp [hd])) (fun d hd => h2 d (by simp [hd]))
    by_cases hm : d ∈ res
    · obtain ⟨n, r, h, hr⟩ := ih res hQ
      exact ⟨n, r, by rw [loop, if_pos hm]; exact h, hr⟩
    · by_cases hc : d.conds = []
      · obtain ⟨n1, r1, e1, q1⟩ := h2 d (by simp) hc res hQ hm
        obtain ⟨n2, r2, e2, q2⟩ := ih r1 q1
        refine ⟨max n1 n2, r2, ?_, q2⟩
        rw [loop, if_neg hm, if_neg (by simp [hc]), addAll_mono (Nat.le_max_left _ _) e1]
        exact mono ds (Nat.le_max_right _ _) e2
      · obtain ⟨n1, r1, e1, q1⟩ := h1 d (by simp) hc res hQ
        obtain ⟨n2, r2, e2, q2⟩ := ih r1 q1
        refine ⟨max n1 n2, r2, ?_, q2⟩
        rw [loop, if_neg hm, if_pos hc, addAll_mono (Nat.le_max_left _ _) e1]
        exact mono ds (Nat.le_max_right _ _) e2

def uncond (deps : Fin N → List (Dep N)) : List (Dep N) :=
  (List.finRange N).flatMap fun a => (deps a).filter (·.conds = [])

def left (deps : Fin N → List (Dep N)) (res : List (Dep N)) : Nat :=
  ((uncond deps).toFinset.filter (· ∉ res)).card

theorem left_mono {res res' : List (Dep N)} (h : res ⊆ res') : left deps res' ≤ left deps res := by
  apply Finset.card_le_card
  intro x hx
  simp only [Finset.mem_filter] at hx ⊢
  exact ⟨hx.1, fun hm => hx.2 (h hm)⟩

theorem left_lt {res : List (Dep N)} {a d} (hd : d ∈ deps a) (hc : d.conds = []) (hm : d ∉ res) :
    left deps (d :: res) < left deps res := by
  have hu : d ∈ uncond deps := List.mem_flatMap.2 ⟨a, List.mem_finRange a, by simp [hd, hc]⟩
  apply Finset.card_lt_card
  constructor
  · intro x hx
    simp only [Finset.mem_filter, List.mem_cons, not_or] at hx ⊢
    exact ⟨hx.1, hx.2.2⟩
  · intro hss
    have := hss (x := d) (by simp [hu, hm])
    simp at this

/-- If nothing reachable through a conditional dependency lies on a cycle, the computation
ends. -/
theorem addAll_terminates (root : Fin N)
    (hac : ∀ a b c, Relation.ReflTransGen (DepEdge deps) root a → CondEdge deps a b →
      Relation.ReflTransGen (DepEdge deps) b c → ¬ Relation.TransGen (DepEdge deps) c c) :
    ∃ n r, addAll deps n root [] [] = some r := by
  -- the part below conditional dependencies
  let C : Fin N → Prop := fun c => ∃ a b, Relation.ReflTransGen (DepEdge deps) root a ∧
    CondEdge deps a b ∧ Relation.ReflTransGen (DepEdge deps) b c
  let R : Fin N → Fin N → Prop := fun b c => Relation.TransGen (DepEdge deps) c b ∧ C c
  have hirr : Std.Irrefl R := ⟨fun b ⟨h1, a', b', h2, h3, h4⟩ => hac a' b' b h2 h3 h4 h1⟩
  have htr : IsTrans (Fin N) R := ⟨fun b c d h1 h2 => ⟨h2.1.trans h1.1, h2.2⟩⟩
  have hwf : WellFounded R := Finite.wellFounded_of_trans_of_irrefl R
  have phase2 : ∀ (a : Fin N), C a → ∀ p res0 res, res0 ⊆ res →
      ∃ n r, addAll deps n a p res = some r ∧ res0 ⊆ r := by
    intro a
    induction a using hwf.induction with
    | _ a ih =>
      intro hC p res0 res hs
      have step : ∀ d ∈ deps a, R d.target a ∧ C d.target := by
        intro d hd
        obtain ⟨a', b', h1, h2, h3⟩ := id hC
        exact ⟨⟨.single ⟨d, hd, rfl⟩, hC⟩, a', b', h1, h2, h3.tail ⟨d, hd, rfl⟩⟩
      obtain ⟨n, r, h, hr⟩ := loop_fuel (Q := fun r => res0 ⊆ r) (p := p) (deps a)
        (fun d hd _ res hQ => ih _ (step d hd).1 (step d hd).2 _ res0 res hQ)
        (fun d hd _ res hQ _ => ih _ (step d hd).1 (step d hd).2 _ res0 _
          (fun x hx => List.mem_cons_of_mem _ (hQ hx)))
        res hs
      exact ⟨n + 1, r, h, hr⟩
  have phase1 : ∀ (k : Nat) (a : Fin N), Relation.ReflTransGen (DepEdge deps) root a →
      ∀ res0 res, res0 ⊆ res → left deps res ≤ k →
      ∃ n r, addAll deps n a [] res = some r ∧ res0 ⊆ r := by
    intro k
    induction k using Nat.strong_induction_on with
    | _ k ih =>
      intro a hra res0 res hs hk
      obtain ⟨n, r, h, hr⟩ := loop_fuel (Q := fun r => res0 ⊆ r ∧ left deps r ≤ k) (p := [])
        (deps a)
        (by
          intro d hd hc res' hQ
          obtain ⟨n, r, h1, h2⟩ := phase2 d.target ⟨a, d.target, hra, ⟨d, hd, rfl, hc⟩, .refl⟩
            ([] ++ d.conds) res' res' (fun _ h => h)
          exact ⟨n, r, h1, fun x hx => h2 (hQ.1 hx), Nat.le_trans (left_mono h2) hQ.2⟩)
        (by
          intro d hd hc res' hQ hm
          have e : ({ d with conds := [] } : Dep N) = d := by rw [← hc]
          rw [e]
          have hlt := left_lt hd hc hm
          obtain ⟨n, r, h1, h2⟩ := ih _ (by omega : left deps (d :: res') < k) d.target
            (hra.tail ⟨d, hd, rfl⟩) res' (d :: res') (fun x hx => List.mem_cons_of_mem _ hx)
            (Nat.le_refl _)
          exact ⟨n, r, h1, fun x hx => h2 (hQ.1 hx), Nat.le_trans (left_mono h2) hQ.2⟩)
        res ⟨hs, hk⟩
      exact ⟨n + 1, r, h, hr.1⟩
  obtain ⟨n, r, h, _⟩ := phase1 _ root .refl [] [] (by simp) (Nat.le_refl _)
  exact ⟨n, r, h⟩

/-! ### Inlining -/

variable {body : Fin N → List (Expr N)}

def unseen (stack : List (Fin N)) : Nat := ((Finset.univ : Finset (Fin N)).filter (· ∉ stack)).card

theorem unseen_lt (stack : List (Fin N)) (m : Fin N) (h : m ∉ stack) :
    unseen (m :: stack) < unseen stack := by
  apply Finset.card_lt_card
  constructor
  · intro x hx
    simp only [Finset.mem_filter, List.mem_cons, not_or] at hx ⊢
    exact ⟨hx.1, hx.2.2⟩
  · intro hss
    have := hss (x := m) (by simp [h])
    simp at this

mutual
theorem inlE_some {rec : List (Fin N) → Fin N → Option (Except (Fin N) (List (Fin N)))}
    {stack : List (Fin N)} (hrec : ∀ m, m ∉ stack → ∃ c, rec (m :: stack) m = some c) :
    ∀ e : Expr N, ∃ c, inlE rec stack e = some c
  | .leaf => ⟨_, rfl⟩
  | .call m args => by
    rw [inlE]
    split
    · exact ⟨_, rfl⟩
    · rename_i hm
      obtain ⟨c, hc⟩ := inlL_some hrec args
      rw [hc]
      cases c with
      | error e => exact ⟨_, rfl⟩
      | ok as =>
        obtain ⟨c', hc'⟩ := hrec m hm
        simp only [hc']
        cases c' <;> exact ⟨_, rfl⟩
theorem inlL_some {rec : List (Fin N) → Fin N → Option (Except (Fin N) (List (Fin N)))}
    {stack : List (Fin N)} (hrec : ∀ m, m ∉ stack → ∃ c, rec (m :: stack) m = some c) :
    ∀ es : List (Expr N), ∃ c, inlL rec stack es = some c
  | [] => ⟨_, rfl⟩
  | e :: es => by
    rw [inlL]
    obtain ⟨c, hc⟩ := inlE_some hrec e
    rw [hc]
    cases c with
    | error e => exact ⟨_, rfl⟩
    | ok as =>
      obtain ⟨c', hc'⟩ := inlL_some hrec es
      simp only [hc']
      cases c' <;> exact ⟨_, rfl⟩
end

theorem inlM_some (k : Nat) : ∀ (stack : List (Fin N)) (m : Fin N), unseen stack ≤ k →
    ∃ c, inlM body (k + 1) stack m = some c := by
  induction k with
  | zero =>
    intro stack m hk
    exact inlL_some (fun m' h1 => by have := unseen_lt stack m' h1; omega) _
  | succ k ih =>
    intro stack m hk
    exact inlL_some (fun m' h1 => ih _ _ (by have := unseen_lt stack m' h1; omega)) _

mutual
theorem inlE_ok {rec : List (Fin N) → Fin N → Option (Except (Fin N) (List (Fin N)))}
    {stack : List (Fin N)} : ∀ (e : Expr N) {l}, inlE rec stack e = some (.ok l) →
    ∀ b ∈ calls e, b ∉ stack ∧ ∃ l', rec (b :: stack) b = some (.ok l') ∧ b ∈ l
  | .leaf, l, h, b, hb => by rw [calls] at hb; cases hb
  | .call m args, l, h, b, hb => by
    rw [inlE] at h
    split at h
    · cases h
    · rename_i hm
      cases h1 : inlL rec stack args with
      | none => rw [h1] at h; cases h
      | some c =>
        cases c with
        | error e => rw [h1] at h; cases h
        | ok as =>
          rw [h1] at h
          simp only [] at h
          cases h2 : rec (m :: stack) m with
          | none => rw [h2] at h; cases h
          | some c =>
            cases c with
            | error e => rw [h2] at h; cases h
            | ok bs =>
              rw [h2] at h
              cases h
              rw [calls] at hb
              rcases List.mem_cons.1 hb with rfl | hb
              · exact ⟨hm, bs, h2, by simp⟩
              · obtain ⟨i1, l', i2, i3⟩ := inlL_ok args h1 b hb
                exact ⟨i1, l', i2, by simp [i3]⟩
theorem inlL_ok {rec : List (Fin N) → Fin N → Option (Except (Fin N) (List (Fin N)))}
    {stack : List (Fin N)} : ∀ (es : List (Expr N)) {l}, inlL rec stack es = some (.ok l) →
    ∀ b ∈ callsL es, b ∉ stack ∧ ∃ l', rec (b :: stack) b = some (.ok l') ∧ b ∈ l
  | [], l, h, b, hb => by rw [callsL] at hb; cases hb
  | e :: es, l, h, b, hb => by
    rw [inlL] at h
    cases h1 : inlE rec stack e with
    | none => rw [h1] at h; cases h
    | some c =>
      cases c with
      | error e => rw [h1] at h; cases h
      | ok as =>
        rw [h1] at h
        simp only [] at h
        cases h2 : inlL rec stack es with
        | none => rw [h2] at h; cases h
        | some c =>
          cases c with
          | error e => rw [h2] at h; cases h
          | ok bs =>
            rw [h2] at h
            cases h
            rw [callsL] at hb
            rcases List.mem_append.1 hb with hb | hb
            · obtain ⟨i1, l', i2, i3⟩ := inlE_ok e h1 b hb
              exact ⟨i1, l', i2, by simp [i3]⟩
            · obtain ⟨i1, l', i2, i3⟩ := inlL_ok es h2 b hb
              exact ⟨i1, l', i2, by simp [i3]⟩
end

mutual
theorem inlE_err {rec : List (Fin N) → Fin N → Option (Except (Fin N) (List (Fin N)))}
    {stack : List (Fin N)} {x : Fin N} : ∀ (e : Expr N), inlE rec stack e = some (.error x) →
    ∃ b ∈ calls e, (b = x ∧ b ∈ stack) ∨ (b ∉ stack ∧ rec (b :: stack) b = some (.error x))
  | .leaf, h => by rw [inlE] at h; cases h
  | .call m args, h => by
    rw [inlE] at h
    split at h
    · rename_i hm; cases h; exact ⟨x, by rw [calls]; simp, .inl ⟨rfl, hm⟩⟩
    · rename_i hm
      cases h1 : inlL rec stack args with
      | none => rw [h1] at h; cases h
      | some c =>
        cases c with
        | error e =>
          rw [h1] at h
          cases h
          obtain ⟨b, hb, r⟩ := inlL_err args h1
          exact ⟨b, by rw [calls]; simp [hb], r⟩
        | ok as =>
          rw [h1] at h
          simp only [] at h
          cases h2 : rec (m :: stack) m with
          | none => rw [h2] at h; cases h
          | some c =>
            cases c with
            | error e => rw [h2] at h; cases h; exact ⟨m, by rw [calls]; simp, .inr ⟨hm, h2⟩⟩
            | ok bs => rw [h2] at h; cases h
theorem inlL_err {rec : List (Fin N) → Fin N → Option (Except (Fin N) (List (Fin N)))}
    {stack : List (Fin N)} {x : Fin N} : ∀ (es : List (Expr N)),
    inlL rec stack es = some (.error x) →
    ∃ b ∈ callsL es, (b = x ∧ b ∈ stack) ∨ (b ∉ stack ∧ rec (b :: stack) b = some (.error x))
  | [], h => by rw [inlL] at h; cases h
  | e :: es, h => by
    rw [inlL] at h
    cases h1 : inlE rec stack e with
    | none => rw [h1] at h; cases h
    | some c =>
      cases c with
      | error e' =>
        rw [h1] at h
        cases h
        obtain ⟨b, hb, r⟩ := inlE_err e h1
        exact ⟨b, by rw [callsL]; simp [hb], r⟩
      | ok as =>
        rw [h1] at h
        simp only [] at h
        cases h2 : inlL rec stack es with
        | none => rw [h2] at h; cases h
        | some c =>
          cases c with
          | error e' =>
            rw [h2] at h
            cases h
            obtain ⟨b, hb, r⟩ := inlL_err es h2
            exact ⟨b, by rw [callsL]; simp [hb], r⟩
          | ok bs => rw [h2] at h; cases h
end

/-- Methods on a call cycle are not translated successfully. -/
theorem inlM_cycle (n : Nat) : ∀ (stack : List (Fin N)) (a : Fin N) l,
    Relation.TransGen (Calls body) a a → inlM body n stack a ≠ some (.ok l) := by
  induction n with
  | zero => intro stack a l _ h; cases h
  | succ n ih =>
    intro stack a l hc h
    obtain ⟨b, hb, hb'⟩ := Relation.TransGen.head'_iff.1 hc
    rw [inlM] at h
    obtain ⟨_, l', h1, _⟩ := inlL_ok _ h b hb
    exact ih _ _ _ (Relation.TransGen.tail' hb' hb) h1

theorem inlM_reach {n : Nat} {a b : Fin N} (hab : Relation.ReflTransGen (Calls body) a b) :
    ∀ {n stack l}, inlM body n stack a = some (.ok l) →
    ∃ n' stack' l', inlM body n' stack' b = some (.ok l') := by
  induction hab using Relation.ReflTransGen.head_induction_on with
  | refl => intro n stack l h; exact ⟨n, stack, l, h⟩
  | head hs _ ih =>
    intro n stack l h
    cases n with
    | zero => cases h
    | succ n =>
      rw [inlM] at h
      obtain ⟨_, l', h1, _⟩ := inlL_ok _ h _ hs
      exact ih h1

/-- A rejection shows a cycle. -/
theorem inlM_err (n : Nat) : ∀ (stack : List (Fin N)) (a x : Fin N),
    (∀ s ∈ stack, Relation.ReflTransGen (Calls body) s a) →
    inlM body n stack a = some (.error x) →
    Relation.ReflTransGen (Calls body) a x ∧ Relation.TransGen (Calls body) x x := by
  induction n with
  | zero => intro stack a x _ h; cases h
  | succ n ih =>
    intro stack a x hst h
    rw [inlM] at h
    obtain ⟨b, hb, ⟨rfl, hm⟩ | ⟨hm, hr⟩⟩ := inlL_err _ h
    · exact ⟨.single hb, Relation.TransGen.tail' (hst _ hm) hb⟩
    · obtain ⟨i1, i2⟩ := ih (b :: stack) b x (by
        intro s hs
        rcases List.mem_cons.1 hs with rfl | hs
        · exact .refl
        · exact (hst s hs).tail hb) hr
      exact ⟨.head hb i1, i2⟩

end Nagini.Deps
