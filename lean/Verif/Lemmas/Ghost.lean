import Verif.Spec.Ghost
set_option linter.unusedVariables false
set_option linter.unusedSimpArgs false
namespace Nagini.Ghost

variable {W : Type} {L : Lib W} {P : Prog}

/-! ### Code without impure calls does not change the world -/

def Job.world : Job W → W
  | .expr _ w _ => w
  | .args _ w _ => w
  | .stmt _ w _ => w
  | .block _ w _ => w
  | .each _ w _ _ _ _ => w

def Res.world : Res W → W
  | .val w _ => w
  | .vals w _ => w
  | .done _ w _ => w

def niJob (P : Prog) : Job W → Prop
  | .expr _ _ e => noImpure P e = true
  | .args _ _ es => noImpures P es = true
  | .stmt _ _ s => noImpureS P s = true
  | .block _ _ ss => noImpureB P ss = true
  | .each _ _ _ _ a b => noImpureB P a = true ∧ noImpureB P b = true

/-- Functions that may be called in ghost code have no effect. -/
def NoEffect (P : Prog) : Prop :=
  ∀ f fn, P f = some fn → (fn.ghost || fn.pure) = true → noImpureB P fn.body = true

theorem run_world (hP : NoEffect P) {j : Job W} {r : Res W} (h : Run L P j r) : niJob P j → r.world = j.world := by
  induction h with
  | const => intro _; rfl
  | none => intro _; rfl
  | var => intro _; rfl
  | op _ _ ih => intro h; simp only [niJob, noImpure, Bool.and_eq_true] at h; exact ih h.2
  | tuple _ ih => intro h; simp only [niJob, noImpure, Bool.and_eq_true] at h; exact ih h.2
  | condT _ _ _ ih1 ih2 =>
    intro h; simp only [niJob, noImpure, noImpures, Bool.and_eq_true] at h
    exact (ih2 h.2.2.1).trans (ih1 h.2.1)
  | condF _ _ _ ih1 ih2 =>
    intro h; simp only [niJob, noImpure, noImpures, Bool.and_eq_true] at h
    exact (ih2 h.2.2.2.1).trans (ih1 h.2.1)
  | attr _ _ ih => intro h; simp only [niJob, noImpure, noImpures, Bool.and_eq_true] at h; exact ih h.2.1
  | builtin _ _ ih => intro h; simp only [niJob, noImpure, Bool.and_eq_true] at h; exact ih h.2
  | prim => intro h; simp [niJob, noImpure] at h
  | call _ hf _ _ _ ih1 ih2 =>
    intro h; simp only [niJob, noImpure, Bool.and_eq_true, hf] at h
    exact (ih2 (hP _ _ hf h.1)).trans (ih1 h.2)
  | nil => intro _; rfl
  | cons _ _ ih1 ih2 =>
    intro h; simp only [niJob, noImpures, Bool.and_eq_true] at h
    exact (ih2 h.2).trans (ih1 h.1)
  | assign _ _ ih => intro h; exact ih h
  | aug _ _ _ ih => intro h; exact ih h
  | exprS _ ih => intro h; exact ih h
  | iteT _ _ _ ih1 ih2 =>
    intro h; simp only [niJob, noImpureS, Bool.and_eq_true] at h
    exact (ih2 h.1.2).trans (ih1 h.1.1)
  | iteF _ _ _ ih1 ih2 =>
    intro h; simp only [niJob, noImpureS, Bool.and_eq_true] at h
    exact (ih2 h.2).trans (ih1 h.1.1)
  | whileF _ _ _ ih1 ih2 =>
    intro h; simp only [niJob, noImpureS, Bool.and_eq_true] at h
    exact (ih2 h.2).trans (ih1 h.1.1)
  | whileN _ _ _ _ _ ih1 ih2 ih3 =>
    intro h
    have h' := h
    simp only [niJob, noImpureS, Bool.and_eq_true] at h
    exact (ih3 h').trans ((ih2 h.1.2).trans (ih1 h.1.1))
  | whileB _ _ _ ih1 ih2 =>
    intro h; simp only [niJob, noImpureS, Bool.and_eq_true] at h
    exact (ih2 h.1.2).trans (ih1 h.1.1)
  | whileR _ _ _ ih1 ih2 =>
    intro h; simp only [niJob, noImpureS, Bool.and_eq_true] at h
    exact (ih2 h.1.2).trans (ih1 h.1.1)
  | forr _ _ _ ih1 ih2 =>
    intro h; simp only [niJob, noImpureS, Bool.and_eq_true] at h
    exact (ih2 ⟨h.1.2, h.2⟩).trans (ih1 h.1.1)
  | eachE _ ih => intro h; exact ih h.2
  | eachN _ _ _ ih1 ih2 => intro h; exact (ih2 h).trans (ih1 h.1)
  | eachB _ ih => intro h; exact ih h.1
  | eachR _ ih => intro h; exact ih h.1
  | retN => intro _; rfl
  | ret _ ih => intro h; exact ih h
  | brk => intro _; rfl
  | cont => intro _; rfl
  | pass => intro _; rfl
  | nilB => intro _; rfl
  | consN _ _ ih1 ih2 =>
    intro h; simp only [niJob, noImpureB, Bool.and_eq_true] at h
    exact (ih2 h.2).trans (ih1 h.1)
  | consJ _ _ ih =>
    intro h; simp only [niJob, noImpureB, Bool.and_eq_true] at h
    exact ih h.1

/-! ### Ghost statements -/

variable {Γ : Nat → Bool}

theorem Agree.refl (ρ : Env) : Agree Γ ρ ρ := fun _ _ => rfl

theorem Agree.trans {ρ ρ' ρ'' : Env} (h : Agree Γ ρ ρ') (h' : Agree Γ ρ' ρ'') : Agree Γ ρ ρ'' :=
  fun x hx => (h x hx).trans (h' x hx)

theorem Agree.symm {ρ ρ' : Env} (h : Agree Γ ρ ρ') : Agree Γ ρ' ρ := fun x hx => (h x hx).symm

theorem Agree.setGhost {ρ ρ' : Env} (h : Agree Γ ρ ρ') {x : Nat} (hx : Γ x = true) (v : Val) :
    Agree Γ (ρ.set x v) ρ' := by
  intro y hy
  have : y ≠ x := by intro e; subst e; simp [hx] at hy
  simp [Env.set, this, h y hy]

theorem Agree.set {ρ ρ' : Env} (h : Agree Γ ρ ρ') (x : Nat) (v : Val) : Agree Γ (ρ.set x v) (ρ'.set x v) := by
  intro y hy
  simp only [Env.set]
  split
  · rfl
  · exact h y hy

theorem sets_ghost {xs : List Nat} : ∀ {vs : List Val} {ρ ρ1 : Env}, ρ.sets xs vs = some ρ1 → xs.all Γ = true →
    Agree Γ ρ1 ρ := by
  induction xs with
  | nil => intro vs ρ ρ1 h _; cases vs <;> simp [Env.sets] at h; subst h; exact Agree.refl _
  | cons x xs ih =>
    intro vs ρ ρ1 h hx
    simp only [List.all_cons, Bool.and_eq_true] at hx
    cases vs with
    | nil => simp [Env.sets] at h
    | cons v vs => exact (ih h hx.2).trans ((Agree.refl _).setGhost hx.1 v)

theorem assignTs_ghost {ts : List Target} : ∀ {v : Val} {ρ ρ1 : Env}, assignTs ρ v ts = some ρ1 →
    (ts.flatMap Target.vars).all Γ = true → Agree Γ ρ1 ρ := by
  induction ts with
  | nil => intro v ρ ρ1 h _; simp [assignTs] at h; subst h; exact Agree.refl _
  | cons t ts ih =>
    intro v ρ ρ1 h hx
    simp only [List.flatMap_cons, List.all_append, Bool.and_eq_true] at hx
    simp only [assignTs] at h
    cases ht : assignT ρ v t with
    | none => simp [ht] at h
    | some ρ' =>
      simp only [ht] at h
      refine (ih h hx.2).trans ?_
      cases t with
      | var x =>
        simp only [assignT, Option.some.injEq] at ht
        subst ht
        exact (Agree.refl _).setGhost (by simpa [Target.vars] using hx.1) v
      | tup xs =>
        cases v with
        | tup vs => exact sets_ghost ht hx.1
        | _ => simp [assignT] at ht

theorem sets_agree {xs : List Nat} : ∀ {vs : List Val} {ρ ρ' ρ1 : Env}, ρ.sets xs vs = some ρ1 → Agree Γ ρ ρ' →
    ∃ ρ1', ρ'.sets xs vs = some ρ1' ∧ Agree Γ ρ1 ρ1' := by
  induction xs with
  | nil =>
    intro vs ρ ρ' ρ1 h ha; cases vs <;> simp [Env.sets] at h; subst h; exact ⟨_, rfl, ha⟩
  | cons x xs ih =>
    intro vs ρ ρ' ρ1 h ha
    cases vs with
    | nil => simp [Env.sets] at h
    | cons v vs => exact ih h (ha.set x v)

theorem assignTs_agree {ts : List Target} : ∀ {v : Val} {ρ ρ' ρ1 : Env}, assignTs ρ v ts = some ρ1 → Agree Γ ρ ρ' →
    ∃ ρ1', assignTs ρ' v ts = some ρ1' ∧ Agree Γ ρ1 ρ1' := by
  induction ts with
  | nil => intro v ρ ρ' ρ1 h ha; simp [assignTs] at h; subst h; exact ⟨_, rfl, ha⟩
  | cons t ts ih =>
    intro v ρ ρ' ρ1 h ha
    simp only [assignTs] at h
    cases ht : assignT ρ v t with
    | none => simp [ht] at h
    | some ρ2 =>
      simp only [ht] at h
      have : ∃ ρ2', assignT ρ' v t = some ρ2' ∧ Agree Γ ρ2 ρ2' := by
        cases t with
        | var x => simp only [assignT, Option.some.injEq] at ht; subst ht; exact ⟨_, rfl, ha.set x v⟩
        | tup xs =>
          cases v with
          | tup vs => exact sets_agree ht ha
          | _ => simp [assignT] at ht
      obtain ⟨ρ2', h1, h2⟩ := this
      obtain ⟨ρ1', h3, h4⟩ := ih h h2
      exact ⟨ρ1', by simp [assignTs, h1, h3], h4⟩

def silentJob (P : Prog) (Γ : Nat → Bool) : Job W → Prop
  | .expr _ _ _ => False
  | .args _ _ _ => False
  | .stmt _ _ s => silent P Γ s = true
  | .block _ _ ss => silentB P Γ ss = true
  | .each _ _ x _ a b => Γ x = true ∧ silentB P Γ a = true ∧ silentB P Γ b = true

def Job.env : Job W → Env
  | .expr ρ _ _ => ρ
  | .args ρ _ _ => ρ
  | .stmt ρ _ _ => ρ
  | .block ρ _ _ => ρ
  | .each ρ _ _ _ _ _ => ρ

def quietEnd (Γ : Nat → Bool) (ρ : Env) (w : W) : Res W → Prop
  | .done ρ1 w1 o => o = .norm ∧ w1 = w ∧ Agree Γ ρ1 ρ
  | _ => False

theorem quietEnd_of {ρ ρ1 : Env} {w w1 : W} {r : Res W} (h : quietEnd Γ ρ1 w1 r) (hw : w1 = w) (ha : Agree Γ ρ1 ρ) :
    quietEnd Γ ρ w r := by
  cases r with
  | done ρ2 w2 o => exact ⟨h.1, h.2.1.trans hw, h.2.2.trans ha⟩
  | _ => exact h

theorem run_silent (hP : NoEffect P) {j : Job W} {r : Res W} (h : Run L P j r) :
    silentJob P Γ j → quietEnd Γ j.env j.world r := by
  induction h with
  | assign hr ha _ =>
    intro h
    simp only [silentJob, silent, Bool.and_eq_true] at h
    exact ⟨rfl, run_world hP hr h.2, assignTs_ghost ha h.1⟩
  | aug _ hr _ _ =>
    intro h
    simp only [silentJob, silent, Bool.and_eq_true] at h
    exact ⟨rfl, run_world hP hr h.2, (Agree.refl _).setGhost h.1 _⟩
  | exprS hr _ => intro h; exact ⟨rfl, run_world hP hr h, Agree.refl _⟩
  | iteT hr _ _ _ ih =>
    intro h
    simp only [silentJob, silent, Bool.and_eq_true] at h
    exact quietEnd_of (ih h.1.2) (run_world hP hr h.1.1) (Agree.refl _)
  | iteF hr _ _ _ ih =>
    intro h
    simp only [silentJob, silent, Bool.and_eq_true] at h
    exact quietEnd_of (ih h.2) (run_world hP hr h.1.1) (Agree.refl _)
  | whileF hr _ _ _ ih =>
    intro h
    simp only [silentJob, silent, Bool.and_eq_true] at h
    exact quietEnd_of (ih h.2) (run_world hP hr h.1.1) (Agree.refl _)
  | whileN hr _ _ _ _ _ ih1 ih2 =>
    intro h
    have h' := h
    simp only [silentJob, silent, Bool.and_eq_true] at h
    have := ih1 h.1.2
    exact quietEnd_of (ih2 h') (this.2.1.trans (run_world hP hr h.1.1)) this.2.2
  | whileB _ _ _ _ ih =>
    intro h
    simp only [silentJob, silent, Bool.and_eq_true] at h
    have := (ih h.1.2).1
    cases this
  | whileR _ _ _ _ ih =>
    intro h
    simp only [silentJob, silent, Bool.and_eq_true] at h
    have := (ih h.1.2).1
    cases this
  | forr hr _ _ _ ih =>
    intro h
    simp only [silentJob, silent, Bool.and_eq_true] at h
    exact quietEnd_of (ih ⟨h.1.1.1, h.1.2, h.2⟩) (run_world hP hr h.1.1.2) (Agree.refl _)
  | eachE _ ih => intro h; exact ih h.2.2
  | eachN _ _ _ ih1 ih2 =>
    intro h
    have := ih1 h.2.1
    exact quietEnd_of (ih2 h) this.2.1 (this.2.2.trans ((Agree.refl _).setGhost h.1 _))
  | eachB _ ih => intro h; have := (ih h.2.1).1; cases this
  | eachR _ ih => intro h; have := (ih h.2.1).1; cases this
  | pass => intro _; exact ⟨rfl, rfl, Agree.refl _⟩
  | nilB => intro _; exact ⟨rfl, rfl, Agree.refl _⟩
  | consN _ _ ih1 ih2 =>
    intro h
    simp only [silentJob, silentB, Bool.and_eq_true] at h
    have := ih1 h.1
    exact quietEnd_of (ih2 h.2) this.2.1 this.2.2
  | consJ _ hne ih =>
    intro h
    simp only [silentJob, silentB, Bool.and_eq_true] at h
    exact absurd (ih h.1).1 hne
  | retN => intro h; simp [silentJob, silent] at h
  | ret => intro h; simp [silentJob, silent] at h
  | brk => intro h; simp [silentJob, silent] at h
  | cont => intro h; simp [silentJob, silent] at h
  | _ => intro h; exact h.elim

/-! ### What remains of a program -/

/-- Nodes that are copied, with parts that are extracted. -/
def Head.copied : Head → Bool
  | .op _ => true
  | .cond => true
  | .tuple => true
  | .attr _ => true
  | .builtin _ => true
  | .prim _ => true
  | _ => false

mutual
inductive RelE (P : Prog) (Γ : Nat → Bool) : Ret → Expr → Expr → Prop
  | const {n es es'} : RelE P Γ .reg (.node (.const n) es) (.node (.const n) es')
  | none {es es'} : RelE P Γ .reg (.node .none es) (.node .none es')
  | var {x es es'} : Γ x = false → RelE P Γ .reg (.node (.var x) es) (.node (.var x) es')
  | node {h es es'} : h.copied = true → RelEs P Γ es es' → RelE P Γ .reg (.node h es) (.node h es')
  | call {f fn es es'} : P f = some fn → fn.ghost = false → RelA P Γ (fn.params.map fn.gvar) es es' →
      RelE P Γ fn.ret (.node (.call f) es) (.node (.call f) es')
  | fst {k e1 e2 e'} : k ≠ .reg → RelE P Γ .reg e1 e' → noImpure P e2 = true →
      RelE P Γ k (.node .tuple [e1, e2]) e'
  | snd {e1 e2 e'} : RelE P Γ .reg e2 e' → noImpure P e1 = true → RelE P Γ .ghost (.node .tuple [e1, e2]) e'

inductive RelEs (P : Prog) (Γ : Nat → Bool) : List Expr → List Expr → Prop
  | nil : RelEs P Γ [] []
  | cons {e e' es es'} : RelE P Γ .reg e e' → RelEs P Γ es es' → RelEs P Γ (e :: es) (e' :: es')

inductive RelA (P : Prog) (Γ : Nat → Bool) : List Bool → List Expr → List Expr → Prop
  | nil : RelA P Γ [] [] []
  | drop {ps e es es'} : noImpure P e = true → RelA P Γ ps es es' → RelA P Γ (true :: ps) (e :: es) es'
  | keep {ps e e' es es'} : RelE P Γ .reg e e' → RelA P Γ ps es es' → RelA P Γ (false :: ps) (e :: es) (e' :: es')
end

mutual
inductive RelS (P : Prog) (Γ : Nat → Bool) (r : Ret) : Stmt → Stmt → Prop
  | asg {ts e e'} : RelE P Γ .reg e e' → RelS P Γ r (.assign ts e) (.assign ts e')
  | asgCall {k ts e e'} : (ts.flatMap Target.vars).all Γ = true → RelE P Γ k e e' → RelS P Γ r (.assign ts e) (.expr e')
  | asgMixed {x g e e'} : Γ g = true → RelE P Γ .mixed e e' →
      RelS P Γ r (.assign [.tup [x, g]] e) (.assign [.var x] e')
  | aug {x k e e'} : Γ x = false → RelE P Γ .reg e e' → RelS P Γ r (.aug x k e) (.aug x k e')
  | expr {k e e'} : RelE P Γ k e e' → RelS P Γ r (.expr e) (.expr e')
  | ite {e e' a a' b b'} : RelE P Γ .reg e e' → RelB P Γ r a a' → RelB P Γ r b b' →
      RelS P Γ r (.ite e a b) (.ite e' a' b')
  | whil {e e' a a' b b'} : RelE P Γ .reg e e' → RelB P Γ r a a' → RelB P Γ r b b' →
      RelS P Γ r (.whil e a b) (.whil e' a' b')
  | forr {x e e' a a' b b'} : RelE P Γ .reg e e' → RelB P Γ r a a' → RelB P Γ r b b' →
      RelS P Γ r (.forr x e a b) (.forr x e' a' b')
  | retN : RelS P Γ r (.ret none) (.ret none)
  | ret {e e'} : RelE P Γ r e e' → RelS P Γ r (.ret (some e)) (.ret (some e'))
  | retCall {k e e'} : r = .ghost → RelE P Γ k e e' → RelS P Γ r (.ret (some e)) (.ret (some e'))
  | retDrop {e} : r = .ghost → noImpure P e = true → RelS P Γ r (.ret (some e)) (.ret none)
  | brk : RelS P Γ r .brk .brk
  | cont : RelS P Γ r .cont .cont
  | pass : RelS P Γ r .pass .pass

inductive RelB (P : Prog) (Γ : Nat → Bool) (r : Ret) : List Stmt → List Stmt → Prop
  | nil : RelB P Γ r [] []
  | drop {s ss ss'} : silent P Γ s = true → RelB P Γ r ss ss' → RelB P Γ r (s :: ss) ss'
  | cons {s s' ss ss'} : RelS P Γ r s s' → RelB P Γ r ss ss' → RelB P Γ r (s :: ss) (s' :: ss')
end

/-- The program `Q` consists of what remains of the functions of `P`. -/
def Remains (P Q : Prog) : Prop := ∀ f fn, P f = some fn → fn.ghost = false →
  ∃ fn', Q f = some fn' ∧ fn'.params = fn.params.filter (!fn.gvar ·) ∧ RelB P fn.gvar fn.ret fn.body fn'.body

/-! ### Simulation -/

theorem sets_keep {g : Nat → Bool} {xs : List Nat} : ∀ {vs : List Val} {ρ ρ' ρ1 : Env}, ρ.sets xs vs = some ρ1 →
    Agree g ρ ρ' → ∃ ρ1', ρ'.sets (xs.filter (!g ·)) (keep (xs.map g) vs) = some ρ1' ∧ Agree g ρ1 ρ1' := by
  induction xs with
  | nil =>
    intro vs ρ ρ' ρ1 h ha
    cases vs <;> simp [Env.sets] at h
    subst h
    exact ⟨ρ', rfl, ha⟩
  | cons x xs ih =>
    intro vs ρ ρ' ρ1 h ha
    cases vs with
    | nil => simp [Env.sets] at h
    | cons v vs =>
      cases hx : g x with
      | true =>
        have := ih h (ha.setGhost hx v)
        simpa [keep, hx] using this
      | false =>
        have := ih h (ha.set x v)
        simpa [keep, hx, Env.sets] using this

def Sim (L : Lib W) (P Q : Prog) : Job W → Res W → Prop
  | .expr ρ w e, .val w' v => ∀ Γ ρ' k e', Agree Γ ρ ρ' → RelE P Γ k e e' →
      ∃ v', Run L Q (.expr ρ' w e') (.val w' v') ∧ RetRel k v v'
  | .args ρ w es, .vals w' vs => ∀ Γ ρ', Agree Γ ρ ρ' →
      (∀ es', RelEs P Γ es es' → Run L Q (.args ρ' w es') (.vals w' vs)) ∧
      (∀ ps es', RelA P Γ ps es es' → Run L Q (.args ρ' w es') (.vals w' (keep ps vs)))
  | .stmt ρ w s, .done ρ1 w1 o => ∀ Γ r ρ' s', Agree Γ ρ ρ' → RelS P Γ r s s' →
      ∃ ρ1' o', Run L Q (.stmt ρ' w s') (.done ρ1' w1 o') ∧ Agree Γ ρ1 ρ1' ∧ OutRel r o o'
  | .block ρ w ss, .done ρ1 w1 o => ∀ Γ r ρ' ss', Agree Γ ρ ρ' → RelB P Γ r ss ss' →
      ∃ ρ1' o', Run L Q (.block ρ' w ss') (.done ρ1' w1 o') ∧ Agree Γ ρ1 ρ1' ∧ OutRel r o o'
  | .each ρ w x vs a b, .done ρ1 w1 o => ∀ Γ r ρ' a' b', Agree Γ ρ ρ' → RelB P Γ r a a' → RelB P Γ r b b' →
      ∃ ρ1' o', Run L Q (.each ρ' w x vs a' b') (.done ρ1' w1 o') ∧ Agree Γ ρ1 ρ1' ∧ OutRel r o o'
  | _, _ => True

theorem OutRel.norm {r : Ret} {o' : Out} (h : OutRel r .norm o') : o' = .norm := by cases o' <;> simp_all [OutRel]
theorem OutRel.brk {r : Ret} {o' : Out} (h : OutRel r .brk o') : o' = .brk := by cases o' <;> simp_all [OutRel]
theorem OutRel.cont {r : Ret} {o' : Out} (h : OutRel r .cont o') : o' = .cont := by cases o' <;> simp_all [OutRel]
theorem OutRel.ret {r : Ret} {o' : Out} {v : Val} (h : OutRel r (.ret v) o') : ∃ v', o' = .ret v' ∧ RetRel r v v' := by
  cases o' <;> simp_all [OutRel]
theorem OutRel.go {r : Ret} {o o' : Out} (h : OutRel r o o') (ho : o = .norm ∨ o = .cont) : o' = .norm ∨ o' = .cont := by
  rcases ho with rfl | rfl
  · exact .inl h.norm
  · exact .inr h.cont
theorem OutRel.ne {r : Ret} {o o' : Out} (h : OutRel r o o') (ho : o ≠ .norm) : o' ≠ .norm := by
  rintro rfl; cases o <;> simp_all [OutRel]
theorem OutRel.result {r : Ret} {o o' : Out} {v : Val} (h : OutRel r o o') (ho : o.result = some v) :
    ∃ v', o'.result = some v' ∧ RetRel r v v' := by
  cases o <;> cases o' <;> simp_all [OutRel, Out.result]
  subst ho
  cases r <;> simp [RetRel]

/-- Every run of the original program has a corresponding run of what remains. -/
theorem run_sim {Q : Prog} (hP : NoEffect P) (hQ : Remains P Q) {j : Job W} {r : Res W} (h : Run L P j r) :
    Sim L P Q j r := by
  induction h with
  | const => intro Γ ρ' k e' ha hr; cases hr with
    | const => exact ⟨_, .const, rfl⟩
    | node hc _ => simp [Head.copied] at hc
  | none => intro Γ ρ' k e' ha hr; cases hr with
    | none => exact ⟨_, .none, rfl⟩
    | node hc _ => simp [Head.copied] at hc
  | var hx => intro Γ ρ' k e' ha hr; cases hr with
    | var hg => exact ⟨_, .var ((ha _ hg).symm.trans hx), rfl⟩
    | node hc _ => simp [Head.copied] at hc
  | op _ ho ih => intro Γ ρ' k e' ha hr; cases hr with
    | node _ hs => exact ⟨_, .op ((ih Γ ρ' ha).1 _ hs) ho, rfl⟩
  | tuple hargs ih => intro Γ ρ' k e' ha hr; cases hr with
    | node _ hs => exact ⟨_, .tuple ((ih Γ ρ' ha).1 _ hs), rfl⟩
    | fst hne h1 hn =>
      have := (ih Γ ρ' ha).2 [false, true] _ (.keep h1 (.drop hn .nil))
      cases hargs with
      | cons _ hb =>
        cases hb with
        | cons _ hc =>
          cases hc
          cases this with
          | cons hx hy =>
            cases hy
            refine ⟨_, hx, ?_⟩
            cases k with
            | reg => exact absurd rfl hne
            | ghost => trivial
            | mixed => exact .inr ⟨_, _, rfl, rfl⟩
    | snd h1 hn =>
      have := (ih Γ ρ' ha).2 [true, false] _ (.drop hn (.keep h1 .nil))
      cases hargs with
      | cons _ hb =>
        cases hb with
        | cons _ hc =>
          cases hc
          cases this with
          | cons hx hy =>
            cases hy
            exact ⟨_, hx, trivial⟩
  | condT _ ht _ ih1 ih2 => intro Γ ρ' k e' ha hr; cases hr with
    | node _ hs =>
      cases hs with
      | cons h1 hs =>
        cases hs with
        | cons h2 hs =>
          cases hs with
          | cons h3 hs =>
            cases hs
            obtain ⟨v1, r1, e1⟩ := ih1 Γ ρ' _ _ ha h1
            obtain ⟨v2, r2, e2⟩ := ih2 Γ ρ' _ _ ha h2
            cases e1
            exact ⟨_, .condT r1 ht r2, e2⟩
  | condF _ ht _ ih1 ih2 => intro Γ ρ' k e' ha hr; cases hr with
    | node _ hs =>
      cases hs with
      | cons h1 hs =>
        cases hs with
        | cons h2 hs =>
          cases hs with
          | cons h3 hs =>
            cases hs
            obtain ⟨v1, r1, e1⟩ := ih1 Γ ρ' _ _ ha h1
            obtain ⟨v2, r2, e2⟩ := ih2 Γ ρ' _ _ ha h3
            cases e1
            exact ⟨_, .condF r1 ht r2, e2⟩
  | attr _ ht ih => intro Γ ρ' k e' ha hr; cases hr with
    | node _ hs =>
      cases hs with
      | cons h1 hs =>
        cases hs
        obtain ⟨v1, r1, e1⟩ := ih Γ ρ' _ _ ha h1
        cases e1
        exact ⟨_, .attr r1 ht, rfl⟩
  | builtin _ ho ih => intro Γ ρ' k e' ha hr; cases hr with
    | node _ hs => exact ⟨_, .builtin ((ih Γ ρ' ha).1 _ hs) ho, rfl⟩
  | prim _ ho ih => intro Γ ρ' k e' ha hr; cases hr with
    | node _ hs => exact ⟨_, .prim ((ih Γ ρ' ha).1 _ hs) ho, rfl⟩
  | call _ hf hs _ ho ih1 ih2 => intro Γ ρ' k e' ha hr; cases hr with
    | node hc _ => simp [Head.copied] at hc
    | call hf' hg hargs =>
      cases hf.symm.trans hf'
      obtain ⟨fn', hq, hpar, hbody⟩ := hQ _ _ hf hg
      obtain ⟨ρ0', hs', ha0⟩ := sets_keep hs (Agree.refl _)
      obtain ⟨ρ1', o', hr', _, hor⟩ := ih2 _ _ _ _ ha0 hbody
      obtain ⟨v', hv', hrel⟩ := hor.result ho
      exact ⟨v', .call ((ih1 Γ ρ' ha).2 _ _ hargs) hq (by rw [hpar]; exact hs') hr' hv', hrel⟩
  | nil =>
    intro Γ ρ' ha
    refine ⟨fun es' h => ?_, fun ps es' h => ?_⟩
    · cases h; exact .nil
    · cases h; exact .nil
  | cons hr _ ih1 ih2 =>
    intro Γ ρ' ha
    refine ⟨fun es' h => ?_, fun ps es' h => ?_⟩
    · cases h with
      | cons h1 h2 =>
        obtain ⟨v1, r1, e1⟩ := ih1 Γ ρ' _ _ ha h1
        cases e1
        exact .cons r1 ((ih2 Γ ρ' ha).1 _ h2)
    · cases h with
      | drop hn h2 =>
        have := run_world hP hr hn
        simp only [Res.world, Job.world] at this
        subst this
        exact (ih2 Γ ρ' ha).2 _ _ h2
      | keep h1 h2 =>
        obtain ⟨v1, r1, e1⟩ := ih1 Γ ρ' _ _ ha h1
        cases e1
        exact .cons r1 ((ih2 Γ ρ' ha).2 _ _ h2)
  | assign _ hs ih =>
    intro Γ r ρ' s' ha hr
    cases hr with
    | asg h1 =>
      obtain ⟨v1, r1, e1⟩ := ih Γ ρ' _ _ ha h1
      cases e1
      obtain ⟨ρ1', h2, h3⟩ := assignTs_agree hs ha
      exact ⟨_, _, .assign r1 h2, h3, trivial⟩
    | asgCall hg h1 =>
      obtain ⟨v1, r1, e1⟩ := ih Γ ρ' _ _ ha h1
      exact ⟨_, _, .exprS r1, (assignTs_ghost hs hg).trans ha, trivial⟩
    | asgMixed hg h1 =>
      obtain ⟨v1, r1, e1⟩ := ih Γ ρ' _ _ ha h1
      rcases e1 with rfl | ⟨a, b, rfl, rfl⟩
      · simp [assignTs, assignT] at hs
      · simp only [assignTs, assignT, Env.sets, Option.some.injEq] at hs
        subst hs
        exact ⟨_, _, .assign r1 rfl, (ha.set _ _).setGhost hg _, trivial⟩
  | aug hx _ ho ih =>
    intro Γ r ρ' s' ha hr
    cases hr with
    | aug hg h1 =>
      obtain ⟨v1, r1, e1⟩ := ih Γ ρ' _ _ ha h1
      cases e1
      exact ⟨_, _, .aug ((ha _ hg).symm.trans hx) r1 ho, ha.set _ _, trivial⟩
  | exprS _ ih =>
    intro Γ r ρ' s' ha hr
    cases hr with
    | expr h1 =>
      obtain ⟨v1, r1, e1⟩ := ih Γ ρ' _ _ ha h1
      exact ⟨_, _, .exprS r1, ha, trivial⟩
  | @iteT ρ w e a b w' v r _ ht _ ih1 ih2 =>
    cases r with
    | done ρ1 w1 o =>
      intro Γ r ρ' s' ha hr
      cases hr with
      | ite h1 h2 h3 =>
        obtain ⟨v1, r1, e1⟩ := ih1 Γ ρ' _ _ ha h1
        cases e1
        obtain ⟨ρ2, o2, r2, a2, o2'⟩ := ih2 Γ r ρ' _ ha h2
        exact ⟨_, _, .iteT r1 ht r2, a2, o2'⟩
    | _ => trivial
  | @iteF ρ w e a b w' v r _ ht _ ih1 ih2 =>
    cases r with
    | done ρ1 w1 o =>
      intro Γ r ρ' s' ha hr
      cases hr with
      | ite h1 h2 h3 =>
        obtain ⟨v1, r1, e1⟩ := ih1 Γ ρ' _ _ ha h1
        cases e1
        obtain ⟨ρ2, o2, r2, a2, o2'⟩ := ih2 Γ r ρ' _ ha h3
        exact ⟨_, _, .iteF r1 ht r2, a2, o2'⟩
    | _ => trivial
  | @whileF ρ w e a b w' v r _ ht _ ih1 ih2 =>
    cases r with
    | done ρ1 w1 o =>
      intro Γ r ρ' s' ha hr
      cases hr with
      | whil h1 h2 h3 =>
        obtain ⟨v1, r1, e1⟩ := ih1 Γ ρ' _ _ ha h1
        cases e1
        obtain ⟨ρ2, o2, r2, a2, o2'⟩ := ih2 Γ r ρ' _ ha h3
        exact ⟨_, _, .whileF r1 ht r2, a2, o2'⟩
    | _ => trivial
  | @whileN ρ w e a b w' v ρ1 w1 o r _ ht _ ho _ ih1 ih2 ih3 =>
    cases r with
    | done ρ3 w3 o3 =>
      intro Γ r ρ' s' ha hr
      have hr' := hr
      cases hr with
      | whil h1 h2 h3 =>
        obtain ⟨v1, r1, e1⟩ := ih1 Γ ρ' _ _ ha h1
        cases e1
        obtain ⟨ρ2, o2, r2, a2, o2'⟩ := ih2 Γ r ρ' _ ha h2
        obtain ⟨ρ4, o4, r4, a4, o4'⟩ := ih3 Γ r ρ2 _ a2 hr'
        exact ⟨_, _, .whileN r1 ht r2 (o2'.go ho) r4, a4, o4'⟩
    | _ => trivial
  | whileB _ ht _ ih1 ih2 =>
    intro Γ r ρ' s' ha hr
    cases hr with
    | whil h1 h2 h3 =>
      obtain ⟨v1, r1, e1⟩ := ih1 Γ ρ' _ _ ha h1
      cases e1
      obtain ⟨ρ2, o2, r2, a2, o2'⟩ := ih2 Γ r ρ' _ ha h2
      cases o2'.brk
      exact ⟨_, _, .whileB r1 ht r2, a2, trivial⟩
  | whileR _ ht _ ih1 ih2 =>
    intro Γ r ρ' s' ha hr
    cases hr with
    | whil h1 h2 h3 =>
      obtain ⟨v1, r1, e1⟩ := ih1 Γ ρ' _ _ ha h1
      cases e1
      obtain ⟨ρ2, o2, r2, a2, o2'⟩ := ih2 Γ r ρ' _ ha h2
      obtain ⟨v', rfl, hv⟩ := o2'.ret
      exact ⟨_, _, .whileR r1 ht r2, a2, hv⟩
  | @forr ρ w x e a b w' v vs r _ hi _ ih1 ih2 =>
    cases r with
    | done ρ1 w1 o =>
      intro Γ r ρ' s' ha hr
      cases hr with
      | forr h1 h2 h3 =>
        obtain ⟨v1, r1, e1⟩ := ih1 Γ ρ' _ _ ha h1
        cases e1
        obtain ⟨ρ2, o2, r2, a2, o2'⟩ := ih2 Γ r ρ' _ _ ha h2 h3
        exact ⟨_, _, .forr r1 hi r2, a2, o2'⟩
    | _ => trivial
  | @eachE ρ w x a b r _ ih =>
    cases r with
    | done ρ1 w1 o =>
      intro Γ r ρ' a' b' ha h2 h3
      obtain ⟨ρ2, o2, r2, a2, o2'⟩ := ih Γ r ρ' _ ha h3
      exact ⟨_, _, .eachE r2, a2, o2'⟩
    | _ => trivial
  | @eachN ρ w x v vs a b ρ1 w1 o r _ ho _ ih1 ih2 =>
    cases r with
    | done ρ3 w3 o3 =>
      intro Γ r ρ' a' b' ha h2 h3
      obtain ⟨ρ2, o2, r2, a2, o2'⟩ := ih1 Γ r _ _ (ha.set x v) h2
      obtain ⟨ρ4, o4, r4, a4, o4'⟩ := ih2 Γ r ρ2 _ _ a2 h2 h3
      exact ⟨_, _, .eachN r2 (o2'.go ho) r4, a4, o4'⟩
    | _ => trivial
  | eachB _ ih =>
    intro Γ r ρ' a' b' ha h2 h3
    obtain ⟨ρ2, o2, r2, a2, o2'⟩ := ih Γ r _ _ (ha.set _ _) h2
    cases o2'.brk
    exact ⟨_, _, .eachB r2, a2, trivial⟩
  | eachR _ ih =>
    intro Γ r ρ' a' b' ha h2 h3
    obtain ⟨ρ2, o2, r2, a2, o2'⟩ := ih Γ r _ _ (ha.set _ _) h2
    obtain ⟨v', rfl, hv⟩ := o2'.ret
    exact ⟨_, _, .eachR r2, a2, hv⟩
  | retN =>
    intro Γ r ρ' s' ha hr
    cases hr
    exact ⟨_, _, .retN, ha, by cases r <;> simp [OutRel, RetRel]⟩
  | ret hrun ih =>
    intro Γ r ρ' s' ha hr
    cases hr with
    | ret h1 =>
      obtain ⟨v1, r1, e1⟩ := ih Γ ρ' _ _ ha h1
      exact ⟨_, _, .ret r1, ha, e1⟩
    | retCall hg h1 =>
      obtain ⟨v1, r1, e1⟩ := ih Γ ρ' _ _ ha h1
      exact ⟨_, _, .ret r1, ha, by subst hg; trivial⟩
    | retDrop hg hn =>
      have := run_world hP hrun hn
      simp only [Res.world, Job.world] at this
      subst this
      exact ⟨_, _, .retN, ha, by subst hg; trivial⟩
  | brk => intro Γ r ρ' s' ha hr; cases hr; exact ⟨_, _, .brk, ha, trivial⟩
  | cont => intro Γ r ρ' s' ha hr; cases hr; exact ⟨_, _, .cont, ha, trivial⟩
  | pass => intro Γ r ρ' s' ha hr; cases hr; exact ⟨_, _, .pass, ha, trivial⟩
  | nilB => intro Γ r ρ' s' ha hr; cases hr; exact ⟨_, _, .nilB, ha, trivial⟩
  | @consN ρ w s ss ρ1 w1 r hs _ ih1 ih2 =>
    cases r with
    | done ρ3 w3 o3 =>
      intro Γ r ρ' ss' ha hr
      cases hr with
      | drop hsil h2 =>
        have := run_silent (Γ := Γ) hP hs hsil
        obtain ⟨-, rfl, hag⟩ := this
        exact ih2 Γ r ρ' _ (hag.trans ha) h2
      | cons h1 h2 =>
        obtain ⟨ρ2, o2, r2, a2, o2'⟩ := ih1 Γ r ρ' _ ha h1
        cases o2'.norm
        obtain ⟨ρ4, o4, r4, a4, o4'⟩ := ih2 Γ r ρ2 _ a2 h2
        exact ⟨_, _, .consN r2 r4, a4, o4'⟩
    | _ => trivial
  | consJ hs hne ih =>
    intro Γ r ρ' ss' ha hr
    cases hr with
    | drop hsil h2 => exact absurd (run_silent (Γ := Γ) hP hs hsil).1 hne
    | cons h1 h2 =>
      obtain ⟨ρ2, o2, r2, a2, o2'⟩ := ih Γ r ρ' _ ha h1
      exact ⟨_, _, .consJ r2 (o2'.ne hne), a2, o2'⟩

/-- Runs are deterministic. -/
theorem run_det {j : Job W} {r : Res W} (h : Run L P j r) : ∀ r', Run L P j r' → r' = r := by
  induction h <;> intro r' h' <;> cases h' <;> grind

end Nagini.Ghost
