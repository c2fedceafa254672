/-
Lemmas for C85-C87: the translation to the extended AST simulates Python's execution.
-/
import Verif.Model.Sif

set_option linter.unusedVariables false
set_option linter.unusedSimpArgs false

namespace Nagini.Sif

variable {σ V : Type}

/-- The node ends in the given state with the given outcome, however large the bound. -/
def Ev (t : X σ V) (x x' : XSt σ V) (o : XOut) : Prop := ∃ m, ∀ k, m ≤ k → xexec k t x = some (x', o)

theorem ev_step {t : X σ V} {x x' : XSt σ V} {o : XOut} (m : Nat)
    (h : ∀ k, m ≤ k → xexec (k + 1) t x = some (x', o)) : Ev t x x' o :=
  ⟨m + 1, fun k hk => by
    obtain ⟨k', rfl⟩ : ∃ k', k = k' + 1 := ⟨k - 1, by omega⟩
    exact h k' (by omega)⟩

theorem ev_upd (f : XSt σ V → XSt σ V) (x : XSt σ V) : Ev (.upd f) x (f x) .norm :=
  ev_step 0 fun k _ => by simp [xexec]
theorem ev_skip (x : XSt σ V) : Ev skip x x .norm := ev_upd id x
theorem ev_ret (f : XSt σ V → XSt σ V) (x : XSt σ V) : Ev (.ret f) x (f x) .ret :=
  ev_step 0 fun k _ => by simp [xexec]
theorem ev_raise (f : XSt σ V → XSt σ V) (x : XSt σ V) : Ev (.raise f) x (f x) .exc :=
  ev_step 0 fun k _ => by simp [xexec]
theorem ev_brk (x : XSt σ V) : Ev .brk x x .brk := ev_step 0 fun k _ => by simp [xexec]
theorem ev_cont (x : XSt σ V) : Ev .cont x x .cont := ev_step 0 fun k _ => by simp [xexec]

theorem ev_seq {a b : X σ V} {x x1 x2 : XSt σ V} {o : XOut} (ha : Ev a x x1 .norm)
    (hb : Ev b x1 x2 o) : Ev (.seq a b) x x2 o := by
  obtain ⟨m, hm⟩ := ha
  obtain ⟨m', hm'⟩ := hb
  refine ev_step (max m m') fun k hk => ?_
  rw [xexec]; simp only [hm k (by omega), hm' k (by omega)]

theorem ev_seq_exit {a b : X σ V} {x x1 : XSt σ V} {o : XOut} (ha : Ev a x x1 o)
    (ho : o ≠ .norm) : Ev (.seq a b) x x1 o := by
  obtain ⟨m, hm⟩ := ha
  refine ev_step m fun k hk => ?_
  rw [xexec]; simp only [hm k hk]
  cases o <;> first | rfl | exact absurd rfl ho

theorem ev_ite_t {c : XSt σ V → Bool} {a b : X σ V} {x x1 : XSt σ V} {o : XOut}
    (hc : c x = true) (ha : Ev a x x1 o) : Ev (.ite c a b) x x1 o := by
  obtain ⟨m, hm⟩ := ha
  refine ev_step m fun k hk => ?_
  rw [xexec]; simp only [hc, if_true, hm k hk]

theorem ev_ite_f {c : XSt σ V → Bool} {a b : X σ V} {x x1 : XSt σ V} {o : XOut}
    (hc : c x = false) (ha : Ev b x x1 o) : Ev (.ite c a b) x x1 o := by
  obtain ⟨m, hm⟩ := ha
  refine ev_step m fun k hk => ?_
  rw [xexec]; simp only [hc, Bool.false_eq_true, if_false, hm k hk]

theorem ev_while_done {c : XSt σ V → Bool} {b e : X σ V} {x x1 : XSt σ V} {o : XOut}
    (hc : c x = false) (he : Ev e x x1 o) : Ev (.while c b e) x x1 o := by
  obtain ⟨m, hm⟩ := he
  refine ev_step m fun k hk => ?_
  rw [xexec]; simp only [hc, Bool.false_eq_true, if_false, hm k hk]

theorem ev_while_next {c : XSt σ V → Bool} {b e : X σ V} {x x1 x2 : XSt σ V} {o o1 : XOut}
    (hc : c x = true) (hb : Ev b x x1 o1) (ho : o1 = .norm ∨ o1 = .cont)
    (hr : Ev (.while c b e) x1 x2 o) : Ev (.while c b e) x x2 o := by
  obtain ⟨m, hm⟩ := hb
  obtain ⟨m', hm'⟩ := hr
  refine ev_step (max m m') fun k hk => ?_
  rw [xexec]; simp only [hc, if_true, hm k (by omega)]
  rcases ho with rfl | rfl <;> exact hm' k (by omega)

theorem ev_while_brk {c : XSt σ V → Bool} {b e : X σ V} {x x1 : XSt σ V}
    (hc : c x = true) (hb : Ev b x x1 .brk) : Ev (.while c b e) x x1 .norm := by
  obtain ⟨m, hm⟩ := hb
  refine ev_step m fun k hk => ?_
  rw [xexec]; simp only [hc, if_true, hm k hk]

theorem ev_while_exit {c : XSt σ V → Bool} {b e : X σ V} {x x1 : XSt σ V} {o : XOut}
    (hc : c x = true) (hb : Ev b x x1 o) (ho : o = .ret ∨ o = .exc) :
    Ev (.while c b e) x x1 o := by
  obtain ⟨m, hm⟩ := hb
  refine ev_step m fun k hk => ?_
  rw [xexec]; simp only [hc, if_true, hm k hk]
  rcases ho with rfl | rfl <;> rfl

/-- Body, handlers and `else` part of a `try` node. -/
def EvT (b : X σ V) (hs : XHandlers σ V) (e : X σ V) (x x' : XSt σ V) (o : XOut) : Prop :=
  (∃ x1, Ev b x x1 .norm ∧ Ev e x1 x' o) ∨
  (∃ x1 hb, Ev b x x1 .exc ∧ hs.pick x1 = some hb ∧ Ev hb x1 x' o) ∨
  (Ev b x x' .exc ∧ hs.pick x' = none ∧ o = .exc) ∨
  (Ev b x x' o ∧ o ≠ .norm ∧ o ≠ .exc)

theorem ev_try {b : X σ V} {hs : XHandlers σ V} {e f : X σ V} {x x1 x2 : XSt σ V} {o o' : XOut}
    (h : EvT b hs e x x1 o) (hf : Ev f x1 x2 o') : Ev (.try b hs e f) x x2 (o.after o') := by
  obtain ⟨mf, hmf⟩ := hf
  rcases h with ⟨x0, ⟨m, hm⟩, ⟨m', hm'⟩⟩ | ⟨x0, hb, ⟨m, hm⟩, hp, ⟨m', hm'⟩⟩ | ⟨⟨m, hm⟩, hp, rfl⟩ |
    ⟨⟨m, hm⟩, h1, h2⟩
  · refine ev_step (max mf (max m m')) fun k hk => ?_
    rw [xexec]; simp only [hm k (by omega), hm' k (by omega), hmf k (by omega)]
  · refine ev_step (max mf (max m m')) fun k hk => ?_
    rw [xexec]; simp only [hm k (by omega), hp, hm' k (by omega), hmf k (by omega)]
  · refine ev_step (max mf m) fun k hk => ?_
    rw [xexec]; simp only [hm k (by omega), hp, hmf k (by omega)]
  · refine ev_step (max mf m) fun k hk => ?_
    rw [xexec]; simp only [hm k (by omega)]
    cases o <;> first | exact absurd rfl h1 | exact absurd rfl h2 | simp only [hmf k (by omega)]

/-- The outcome of the generated code that corresponds to one of Python. -/
def xo : Out V → XOut
  | .norm => .norm | .brk => .brk | .cont => .cont | .ret _ => .ret | .exc _ => .exc

/-- Result and error variable hold what Python returns or raises. -/
def Holds : Out V → XSt σ V → Prop
  | .ret v, x => x.res = some v
  | .exc e, x => x.err = some e ∧ x.res = none
  | _, x => x.res = none

def Frame (d : Nat) (x x' : XSt σ V) : Prop :=
  ∀ j, j < d → x'.iters j = x.iters j ∧ x'.done j = x.done j ∧ x'.exc j = x.exc j

theorem Frame.refl (d : Nat) (x : XSt σ V) : Frame d x x := fun _ _ => ⟨rfl, rfl, rfl⟩
theorem Frame.trans {d : Nat} {x y z : XSt σ V} (h : Frame d x y) (h' : Frame d y z) :
    Frame d x z := fun j hj =>
  ⟨(h' j hj).1.trans (h j hj).1, (h' j hj).2.1.trans (h j hj).2.1, (h' j hj).2.2.trans (h j hj).2.2⟩
theorem Frame.le {d d' : Nat} {x y : XSt σ V} (h : Frame d' x y) (hd : d ≤ d') : Frame d x y :=
  fun j hj => h j (by omega)
theorem Frame.of_eq {d : Nat} {x y : XSt σ V} (h1 : y.iters = x.iters) (h2 : y.done = x.done)
    (h3 : y.exc = x.exc) : Frame d x y := fun j _ => ⟨by rw [h1], by rw [h2], by rw [h3]⟩

/-! ### Plain statements -/

theorem plain_sim (dx : Bool) (A : List Nat) (d : Nat) : ∀ (n : Nat) (s : Stmt σ V), plain s →
    ∀ t, tr dx A d s = some t → ∀ c x c' o, x.s = c.s → exec n s c = some (c', o) →
    (o = .norm ∧ Ev t x { x with s := c'.s } .norm) ∨
    (∃ v, o = .ret v ∧ Ev t x { x with s := c'.s, res := some v } .ret) := by
  intro n
  induction n with
  | zero => intro s _ t _ c x c' o _ he; simp [exec] at he
  | succ n ih =>
    intro s hp t ht c x c' o hs he
    cases s with
    | act f =>
      simp only [tr, Option.some.injEq] at ht; subst ht
      simp only [exec, Option.some.injEq, Prod.mk.injEq] at he
      obtain ⟨rfl, rfl⟩ := he
      refine .inl ⟨rfl, ?_⟩
      have := ev_upd (fun x : XSt σ V => { x with s := f x.s }) x
      simpa [Cfg.upd, hs] using this
    | ret f =>
      simp only [tr, Option.some.injEq] at ht; subst ht
      simp only [exec, Option.some.injEq, Prod.mk.injEq] at he
      obtain ⟨rfl, rfl⟩ := he
      refine .inr ⟨_, rfl, ?_⟩
      have := ev_ret (fun x : XSt σ V => { x with s := (f x.s).1, res := some (f x.s).2 }) x
      simpa [hs] using this
    | seq a b =>
      obtain ⟨ha, hb⟩ := hp
      cases hta : tr dx A d a with
      | none => simp [tr, hta] at ht
      | some ta =>
        cases htb : tr dx A d b with
        | none => simp [tr, hta, htb] at ht
        | some tb =>
          simp only [tr, hta, htb, Option.some.injEq] at ht; subst ht
          rw [exec] at he
          cases hea : exec n a c with
          | none => simp [hea] at he
          | some r =>
            obtain ⟨c1, o1⟩ := r
            rcases ih a ha ta hta c x c1 o1 hs hea with ⟨rfl, h1⟩ | ⟨v, rfl, h1⟩
            · simp only [hea] at he
              rcases ih b hb tb htb c1 { x with s := c1.s } c' o rfl he with ⟨rfl, h2⟩ | ⟨v, rfl, h2⟩
              · exact .inl ⟨rfl, ev_seq h1 h2⟩
              · exact .inr ⟨v, rfl, ev_seq h1 h2⟩
            · simp only [hea, Option.some.injEq, Prod.mk.injEq] at he
              obtain ⟨rfl, rfl⟩ := he
              exact .inr ⟨v, rfl, ev_seq_exit h1 (by simp)⟩
    | ite g a b =>
      obtain ⟨ha, hb⟩ := hp
      cases hta : tr dx A d a with
      | none => simp [tr, hta] at ht
      | some ta =>
        cases htb : tr dx A d b with
        | none => simp [tr, hta, htb] at ht
        | some tb =>
          simp only [tr, hta, htb, Option.some.injEq] at ht; subst ht
          rw [exec] at he
          cases hg : g c.s with
          | true =>
            simp only [hg, if_true] at he
            rcases ih a ha ta hta c x c' o hs he with ⟨rfl, h2⟩ | ⟨v, rfl, h2⟩
            · exact .inl ⟨rfl, ev_ite_t (by simp [hs, hg]) h2⟩
            · exact .inr ⟨v, rfl, ev_ite_t (by simp [hs, hg]) h2⟩
          | false =>
            simp only [hg, Bool.false_eq_true, if_false] at he
            rcases ih b hb tb htb c x c' o hs he with ⟨rfl, h2⟩ | ⟨v, rfl, h2⟩
            · exact .inl ⟨rfl, ev_ite_f (by simp [hs, hg]) h2⟩
            · exact .inr ⟨v, rfl, ev_ite_f (by simp [hs, hg]) h2⟩
    | _ => exact hp.elim

/-! ### Bodies of named handlers -/

theorem calm_sim (dx : Bool) (h : Nat) (d : Nat) : ∀ (n : Nat) (s : Stmt σ V), calm s →
    ∀ t, tr dx [h] d s = some t → ∀ c x c' o, x.s = c.s → x.err = c.env h → x.res = none →
    exec n s c = some (c', o) →
    ∃ x', Ev t x x' (xo o) ∧ x'.s = c'.s ∧ Holds o x' ∧ Frame d x x' ∧
      ((∀ e, o ≠ .exc e) → x'.err = x.err ∧ c'.env = c.env) := by
  intro n
  induction n with
  | zero => intro s _ t _ c x c' o _ _ _ he; simp [exec] at he
  | succ n ih =>
    intro s hp t ht c x c' o hs hx hr he
    cases s with
    | act f =>
      simp only [tr, Option.some.injEq] at ht; subst ht
      simp only [exec, Option.some.injEq, Prod.mk.injEq] at he
      obtain ⟨rfl, rfl⟩ := he
      exact ⟨_, ev_upd _ _, by simp [Cfg.upd, hs], hr, .of_eq rfl rfl rfl, fun _ => ⟨rfl, rfl⟩⟩
    | actH k f =>
      simp only [tr, List.mem_singleton] at ht
      split at ht
      · rename_i hk; subst hk
        simp only [Option.some.injEq] at ht; subst ht
        simp only [exec, Option.some.injEq, Prod.mk.injEq] at he
        obtain ⟨rfl, rfl⟩ := he
        exact ⟨_, ev_upd _ _, by simp [Cfg.upd, hs, hx], hr, .of_eq rfl rfl rfl, fun _ => ⟨rfl, rfl⟩⟩
      · cases ht
    | raise f =>
      simp only [tr, Option.some.injEq] at ht; subst ht
      simp only [exec, Option.some.injEq, Prod.mk.injEq] at he
      obtain ⟨rfl, rfl⟩ := he
      exact ⟨_, ev_raise _ _, by simp [hs], ⟨by simp [hs], hr⟩, .of_eq rfl rfl rfl,
        fun hne => absurd rfl (hne _)⟩
    | raiseH k =>
      simp only [tr, List.mem_singleton] at ht
      split at ht
      · rename_i hk; subst hk
        simp only [Option.some.injEq] at ht; subst ht
        rw [exec] at he
        cases hk : c.env k with
        | none => simp [hk] at he
        | some e =>
          simp only [hk, Option.some.injEq, Prod.mk.injEq] at he
          obtain ⟨rfl, rfl⟩ := he
          exact ⟨_, ev_raise _ _, hs, ⟨hx.trans hk, hr⟩, .refl _ _, fun hne => absurd rfl (hne _)⟩
      · cases ht
    | ret f =>
      simp only [tr, Option.some.injEq] at ht; subst ht
      simp only [exec, Option.some.injEq, Prod.mk.injEq] at he
      obtain ⟨rfl, rfl⟩ := he
      refine ⟨_, ev_ret _ _, by simp [hs], ?_, .of_eq rfl rfl rfl, fun _ => ⟨rfl, rfl⟩⟩
      simp [Holds, hs]
    | brk =>
      simp only [tr, Option.some.injEq] at ht; subst ht
      simp only [exec, Option.some.injEq, Prod.mk.injEq] at he
      obtain ⟨rfl, rfl⟩ := he
      exact ⟨_, ev_brk _, hs, hr, .refl _ _, fun _ => ⟨rfl, rfl⟩⟩
    | cont =>
      simp only [tr, Option.some.injEq] at ht; subst ht
      simp only [exec, Option.some.injEq, Prod.mk.injEq] at he
      obtain ⟨rfl, rfl⟩ := he
      exact ⟨_, ev_cont _, hs, hr, .refl _ _, fun _ => ⟨rfl, rfl⟩⟩
    | seq a b =>
      obtain ⟨ha, hb⟩ := hp
      cases hta : tr dx [h] d a with
      | none => simp [tr, hta] at ht
      | some ta =>
        cases htb : tr dx [h] d b with
        | none => simp [tr, hta, htb] at ht
        | some tb =>
          simp only [tr, hta, htb, Option.some.injEq] at ht; subst ht
          rw [exec] at he
          cases hea : exec n a c with
          | none => simp [hea] at he
          | some r =>
            obtain ⟨c1, o1⟩ := r
            obtain ⟨x1, h1, h2, h3, h4, h5⟩ := ih a ha ta hta c x c1 o1 hs hx hr hea
            by_cases hn : o1 = .norm
            · subst hn
              simp only [hea] at he
              obtain ⟨h5, h6⟩ := h5 (fun _ => by simp)
              obtain ⟨x2, g1, g2, g3, g4, g5⟩ := ih b hb tb htb c1 x1 c' o h2
                (by rw [h5, h6]; exact hx) h3 he
              refine ⟨x2, ev_seq h1 g1, g2, g3, h4.trans g4, fun hne => ?_⟩
              obtain ⟨g5, g6⟩ := g5 hne
              exact ⟨g5.trans h5, g6.trans h6⟩
            · have hee : (c1, o1) = (c', o) := by
                simp only [hea] at he
                cases o1 <;> first | exact absurd rfl hn | exact Option.some.inj he
              cases hee
              refine ⟨x1, ev_seq_exit h1 ?_, h2, h3, h4, h5⟩
              cases o <;> first | exact absurd rfl hn | simp [xo]
    | ite g a b =>
      obtain ⟨ha, hb⟩ := hp
      cases hta : tr dx [h] d a with
      | none => simp [tr, hta] at ht
      | some ta =>
        cases htb : tr dx [h] d b with
        | none => simp [tr, hta, htb] at ht
        | some tb =>
          simp only [tr, hta, htb, Option.some.injEq] at ht; subst ht
          rw [exec] at he
          cases hg : g c.s with
          | true =>
            simp only [hg, if_true] at he
            obtain ⟨x1, h1, h2⟩ := ih a ha ta hta c x c' o hs hx hr he
            exact ⟨x1, ev_ite_t (by simp [hs, hg]) h1, h2⟩
          | false =>
            simp only [hg, Bool.false_eq_true, if_false] at he
            obtain ⟨x1, h1, h2⟩ := ih b hb tb htb c x c' o hs hx hr he
            exact ⟨x1, ev_ite_f (by simp [hs, hg]) h1, h2⟩
    | _ => exact hp.elim

/-! ### `continue` -/

theorem noContH_pick : ∀ (hs : Handlers σ V), noContH hs → ∀ e h b, hs.pick e = some (h, b) →
    noCont b
  | .nil, _, e, h, b, hp => by simp [Handlers.pick] at hp
  | .cons m k b' rest, hn, e, h, b, hp => by
    rw [noContH] at hn
    rw [Handlers.pick] at hp
    split at hp
    · cases hp; exact hn.1
    · exact noContH_pick rest hn.2 e h b hp

theorem forGo_cont {asg : V → σ → σ} {b e : Cfg σ → Res σ V}
    (he : ∀ c c', e c ≠ some (c', .cont)) : ∀ vs c c', forGo asg b e vs c ≠ some (c', .cont)
  | [], c, c' => by rw [forGo]; exact he c c'
  | v :: vs, c, c' => by
    rw [forGo]
    cases hb : b (c.upd (asg v)) with
    | none => simp
    | some r =>
      obtain ⟨c1, o⟩ := r
      cases o with
      | norm => exact forGo_cont he vs c1 c'
      | cont => exact forGo_cont he vs c1 c'
      | brk => simp
      | ret _ => simp
      | exc _ => simp

theorem noCont_exec : ∀ (n : Nat) (s : Stmt σ V), noCont s → ∀ c c', exec n s c ≠ some (c', .cont) := by
  intro n
  induction n with
  | zero => intro s _ c c'; simp [exec]
  | succ n ih =>
    intro s hn c c'
    cases s with
    | act f => simp [exec]
    | actH h f => simp [exec]
    | call f =>
      simp only [exec]
      cases (f c.s).2 <;> simp
    | raise f => simp [exec]
    | raiseH h => simp only [exec]; cases c.env h <;> simp
    | ret f => simp [exec]
    | brk => simp [exec]
    | cont => exact hn.elim
    | seq a b =>
      rw [noCont] at hn
      rw [exec]
      cases ha : exec n a c with
      | none => simp
      | some r =>
        obtain ⟨c1, o⟩ := r
        cases o with
        | norm => exact ih b hn.2 c1 c'
        | cont => exact absurd ha (ih a hn.1 c c1)
        | _ => simp
    | ite g a b =>
      rw [noCont] at hn
      rw [exec]
      cases g c.s with
      | true => simpa using ih a hn.1 c c'
      | false => simpa using ih b hn.2 c c'
    | «while» g b e =>
      have hn' := hn
      rw [noCont] at hn
      rw [exec]
      cases g c.s with
      | false => simpa using ih e hn c c'
      | true =>
        simp only [if_true]
        cases hb : exec n b c with
        | none => simp
        | some r =>
          obtain ⟨c1, o⟩ := r
          cases o with
          | norm => exact ih _ hn' c1 c'
          | cont => exact ih _ hn' c1 c'
          | _ => simp
    | «for» it asg b e =>
      rw [noCont] at hn
      rw [exec]
      exact forGo_cont (ih e hn) _ _ _
    | «try» b hs e f =>
      rw [noCont] at hn
      obtain ⟨h1, h2, h3, h4⟩ := hn
      rw [exec]
      have hr : ∀ r, tryGo (exec n) b hs e c = some r → r.2 ≠ .cont := by
        intro r hr hc
        unfold tryGo at hr
        cases hb : exec n b c with
        | none => simp [hb] at hr
        | some r1 =>
          obtain ⟨c1, o⟩ := r1
          rw [hb] at hr
          cases o with
          | norm =>
            refine ih e h3 c1 r.1 ?_
            rw [← hc]; exact hr
          | exc y =>
            simp only at hr
            cases hp : hs.pick y with
            | none => simp only [hp, Option.some.injEq] at hr; subst hr; cases hc
            | some p =>
              obtain ⟨h, hb'⟩ := p
              simp only [hp] at hr
              cases hx : exec n hb' (c1.bind h (some y)) with
              | none => simp [hx] at hr
              | some q =>
                obtain ⟨c2, o2⟩ := q
                simp only [hx, Option.some.injEq] at hr
                subst hr
                have hc : o2 = .cont := hc
                subst hc
                exact ih hb' (noContH_pick hs h2 _ _ _ hp) _ _ hx
          | cont => exact ih b h1 c c1 hb
          | brk => simp only [Option.some.injEq] at hr; subst hr; cases hc
          | ret _ => simp only [Option.some.injEq] at hr; subst hr; cases hc
      cases hR : tryGo (exec n) b hs e c with
      | none => simp
      | some r =>
        obtain ⟨c1, o⟩ := r
        have ho : o ≠ .cont := hr _ hR
        simp only
        cases hf : exec n f c1 with
        | none => simp
        | some q =>
          obtain ⟨c2, o2⟩ := q
          simp only [ne_eq, Option.some.injEq, Prod.mk.injEq, not_and]
          intro _ hh
          cases o2 with
          | norm => exact ho hh
          | cont => exact ih f h4 _ _ hf
          | _ => cases hh
    | «with» en exN exE bi b =>
      rw [noCont] at hn
      rw [exec]
      cases hb : exec n b ((c.upd en).upd bi) with
      | none => simp
      | some r =>
        obtain ⟨c1, o⟩ := r
        cases o with
        | cont => exact absurd hb (ih b hn _ _)
        | exc y => simp only; cases (exE y c1.s).2 <;> simp
        | _ => simp

/-! ### The simulation -/

/-- The translated statement follows the execution of the statement. -/
def Sim (d : Nat) (t : X σ V) (x : XSt σ V) (c' : Cfg σ) (o : Out V) : Prop :=
  ∃ x', Ev t x x' (xo o) ∧ x'.s = c'.s ∧ Holds o x' ∧ Frame d x x'

theorem pick_sim (dx : Bool) (d : Nat) : ∀ (hs : Handlers σ V) xhs, trH dx [] d hs = some xhs →
    ∀ (x : XSt σ V) e, x.err = some e →
    (hs.pick e = none → xhs.pick x = none) ∧
    (∀ h b, hs.pick e = some (h, b) → ∃ tb, xhs.pick x = some tb ∧
      tr dx (aliases h []) d b = some tb)
  | .nil, xhs, ht, x, e, hx => by
    simp only [trH, Option.some.injEq] at ht; subst ht
    simp [Handlers.pick, XHandlers.pick]
  | .cons m k b rest, xhs, ht, x, e, hx => by
    cases htb : tr dx (aliases k []) d b with
    | none => simp [trH, htb] at ht
    | some tb =>
      cases htr : trH dx [] d rest with
      | none => simp [trH, htb, htr] at ht
      | some tr' =>
        have hh : XHandlers.cons (catches m) tb tr' = xhs := by
          simpa [trH, htb, htr] using ht
        subst hh
        have hc : catches m x = m e := by simp [catches, hx]
        cases hm : m e with
        | true =>
          refine ⟨fun hn => by simp [Handlers.pick, hm] at hn, fun h b' hp => ?_⟩
          simp only [Handlers.pick, hm, if_true, Option.some.injEq, Prod.mk.injEq] at hp
          obtain ⟨rfl, rfl⟩ := hp
          exact ⟨tb, by simp [XHandlers.pick, hc, hm], htb⟩
        | false =>
          obtain ⟨h1, h2⟩ := pick_sim dx d rest tr' htr x e hx
          refine ⟨fun hn => ?_, fun h b' hp => ?_⟩
          · simp only [Handlers.pick, hm, Bool.false_eq_true, if_false] at hn
            simp [XHandlers.pick, hc, hm, h1 hn]
          · simp only [Handlers.pick, hm, Bool.false_eq_true, if_false] at hp
            obtain ⟨tb', h3, h4⟩ := h2 h b' hp
            exact ⟨tb', by simp [XHandlers.pick, hc, hm, h3], h4⟩

theorem OkH_pick : ∀ (hs : Handlers σ V), OkH hs → ∀ e h b, hs.pick e = some (h, b) →
    match h with | some _ => calm b | none => Ok b
  | .nil, _, e, h, b, hp => by simp [Handlers.pick] at hp
  | .cons m k b' rest, hn, e, h, b, hp => by
    have hn' : (match k with | some _ => calm b' | none => Ok b') ∧ OkH rest := by
      cases k <;> (rw [OkH] at hn; exact hn)
    rw [Handlers.pick] at hp
    split at hp
    · cases hp; cases k <;> exact hn'.1
    · exact OkH_pick rest hn'.2 e h b hp

theorem set_same {α : Type} (g : Nat → α) (d : Nat) (a : α) : set g d a d = a := by simp [set]
theorem set_other {α : Type} (g : Nat → α) {d j : Nat} (a : α) (h : j ≠ d) : set g d a j = g j := by
  simp [set, h]

theorem set_frame_iters {d : Nat} (x : XSt σ V) (l : List V) :
    Frame d x { x with iters := set x.iters d l } :=
  fun j hj => ⟨set_other _ _ (by omega), rfl, rfl⟩

theorem nextCall_frame (d : Nat) (x : XSt σ V) : Frame d x (nextCall d x) := by
  intro j hj
  unfold nextCall
  cases x.iters d with
  | nil => exact ⟨rfl, set_other _ _ (by omega), rfl⟩
  | cons v vs => exact ⟨set_other _ _ (by omega), set_other _ _ (by omega), rfl⟩

theorem assign_frame (asg : V → σ → σ) (d : Nat) (x : XSt σ V) : Frame d x (assignTarget asg d x) := by
  unfold assignTarget
  split
  · exact .refl _ _
  · split <;> exact .of_eq rfl rfl rfl

/-- The state before the next iteration. -/
theorem next_assign (asg : V → σ → σ) (d : Nat) (x : XSt σ V) :
    match x.iters d with
    | [] => (assignTarget asg d (nextCall d x)).s = x.s ∧
        (assignTarget asg d (nextCall d x)).done d = true
    | v :: vs => (assignTarget asg d (nextCall d x)).s = asg v x.s ∧
        (assignTarget asg d (nextCall d x)).done d = false ∧
        (assignTarget asg d (nextCall d x)).iters d = vs := by
  cases h : x.iters d with
  | nil => simp [nextCall, h, assignTarget, set]
  | cons v vs => simp [nextCall, h, assignTarget, set]

theorem next_assign_res (asg : V → σ → σ) (d : Nat) (x : XSt σ V) :
    (assignTarget asg d (nextCall d x)).res = x.res ∧
    (assignTarget asg d (nextCall d x)).err = x.err := by
  unfold assignTarget
  split
  · unfold nextCall; split <;> exact ⟨rfl, rfl⟩
  · split <;> (unfold nextCall; split <;> exact ⟨rfl, rfl⟩)

theorem Holds_norm {x : XSt σ V} (h : x.res = none) : Holds (.norm : Out V) x := h

/-- A `while` loop without the statements after it. -/
def WhileSim (dx : Bool) (n : Nat) : Prop :=
  ∀ (d : Nat) (g : σ → Bool) (b e : Stmt σ V), Ok b → Ok e →
    ∀ tb te, tr dx [] d b = some tb → tr dx [] d e = some te → ∀ c x c' o, x.s = c.s →
    x.res = none → exec n (.while g b e) c = some (c', o) →
    Sim d (.while (fun x => g x.s) tb te) x c' o

def StmtSim (σ V : Type) (dx : Bool) (n : Nat) : Prop :=
  ∀ (d : Nat) (s : Stmt σ V), Ok s →
    ∀ t, tr dx [] d s = some t → ∀ c x c' o, x.s = c.s → x.res = none →
    exec n s c = some (c', o) → Sim d t x c' o

theorem while_step (dx : Bool) (n : Nat) (ih : StmtSim σ V dx n) (ihw : WhileSim (σ := σ) (V := V) dx n) :
    WhileSim (σ := σ) (V := V) dx (n + 1) := by
  intro d g b e hb he' tb te htb hte c x c' o hs hr he
  rw [exec] at he
  cases hg : g c.s with
  | false =>
    simp only [hg, Bool.false_eq_true, if_false] at he
    obtain ⟨x1, h1, h2⟩ := ih d e he' te hte c x c' o hs hr he
    exact ⟨x1, ev_while_done (by simp [hs, hg]) h1, h2⟩
  | true =>
    simp only [hg, if_true] at he
    cases heb : exec n b c with
    | none => simp [heb] at he
    | some r =>
      obtain ⟨c1, o1⟩ := r
      obtain ⟨x1, h1, h2, h3, h4⟩ := ih d b hb tb htb c x c1 o1 hs hr heb
      simp only [heb] at he
      cases o1 with
      | norm =>
        obtain ⟨x2, g1, g2, g3, g4⟩ := ihw d g b e hb he' tb te htb hte c1 x1 c' o h2 h3 he
        exact ⟨x2, ev_while_next (by simp [hs, hg]) h1 (.inl rfl) g1, g2, g3, h4.trans g4⟩
      | cont =>
        obtain ⟨x2, g1, g2, g3, g4⟩ := ihw d g b e hb he' tb te htb hte c1 x1 c' o h2 h3 he
        exact ⟨x2, ev_while_next (by simp [hs, hg]) h1 (.inr rfl) g1, g2, g3, h4.trans g4⟩
      | brk =>
        simp only [Option.some.injEq, Prod.mk.injEq] at he
        obtain ⟨rfl, rfl⟩ := he
        exact ⟨x1, ev_while_brk (by simp [hs, hg]) h1, h2, h3, h4⟩
      | ret v =>
        simp only [Option.some.injEq, Prod.mk.injEq] at he
        obtain ⟨rfl, rfl⟩ := he
        exact ⟨x1, ev_while_exit (by simp [hs, hg]) h1 (.inl rfl), h2, h3, h4⟩
      | exc v =>
        simp only [Option.some.injEq, Prod.mk.injEq] at he
        obtain ⟨rfl, rfl⟩ := he
        exact ⟨x1, ev_while_exit (by simp [hs, hg]) h1 (.inr rfl), h2, h3, h4⟩

/-- Statements after a loop that only reset the result. -/
theorem after_loop {dx : Bool} {d : Nat} {t u : X σ V} {x : XSt σ V} {c' : Cfg σ} {o : Out V}
    (hu : ∀ y : XSt σ V, Ev u y (setResultNone dx y) .norm)
    (h : Sim d t x c' o) : Sim d (.seq t u) x c' o := by
  obtain ⟨x1, h1, h2, h3, h4⟩ := h
  by_cases hn : o = .norm
  · subst hn
    exact ⟨_, ev_seq h1 (hu x1), h2, rfl, h4.trans (.of_eq rfl rfl rfl)⟩
  · refine ⟨x1, ev_seq_exit h1 ?_, h2, h3, h4⟩
    cases o <;> first | exact absurd rfl hn | simp [xo]

/-- The loop generated for `for`, started with the first element bound. -/
theorem for_loop (dx : Bool) (n : Nat) (ih : StmtSim σ V dx n) (d : Nat) (asg : V → σ → σ)
    (b e : Stmt σ V) (hb : Ok b) (hc : noCont b) (hoe : Ok e) (tb te : X σ V)
    (htb : tr dx [] (d + 1) b = some tb) (hte : tr dx [] (d + 1) e = some te) :
    ∀ (vs : List V) (c : Cfg σ) (x : XSt σ V) (c' : Cfg σ) (o : Out V), x.s = c.s →
      x.res = none → x.iters d = vs → forGo asg (exec n b) (exec n e) vs c = some (c', o) →
      Sim d (.while (fun x => !x.done d)
        (.seq tb (.seq skip (.seq (.upd (nextCall d)) (.upd (assignTarget asg d))))) te)
        (assignTarget asg d (nextCall d x)) c' o := by
    intro vs
    induction vs with
    | nil =>
      intro c x c' o hs hr hv he
      rw [forGo] at he
      have hna := next_assign asg d x
      rw [hv] at hna
      obtain ⟨x1, h1, h2, h3, h4⟩ := ih (d + 1) e hoe te hte c (assignTarget asg d (nextCall d x)) c' o
        (hna.1.trans hs) ((next_assign_res asg d x).1.trans hr) he
      exact ⟨x1, ev_while_done (by simp [hna.2]) h1, h2, h3, h4.le (by omega)⟩
    | cons v vs ihv =>
      intro c x c' o hs hr hv he
      rw [forGo] at he
      have hna := next_assign asg d x
      rw [hv] at hna
      obtain ⟨hn1, hn2, hn3⟩ := hna
      generalize hy : assignTarget asg d (nextCall d x) = y at hn1 hn2 hn3
      have hyr : y.res = none := by rw [← hy]; exact (next_assign_res asg d x).1.trans hr
      cases heb : exec n b (c.upd (asg v)) with
      | none => simp [heb] at he
      | some r =>
        obtain ⟨c1, o1⟩ := r
        obtain ⟨x1, h1, h2, h3, h4⟩ := ih (d + 1) b hb tb htb (c.upd (asg v)) y c1 o1
          (by rw [hn1, hs]; rfl) hyr heb
        rw [heb] at he
        have hw : (fun x : XSt σ V => !x.done d) y = true := by simp [hn2]
        cases o1 with
        | norm =>
          have hi : x1.iters d = vs := (h4 d (by omega)).1.trans hn3
          obtain ⟨x2, g1, g2, g3, g4⟩ := ihv c1 x1 c' o h2 h3 hi he
          refine ⟨x2, ev_while_next hw (ev_seq h1 (ev_seq (ev_skip _) (ev_seq (ev_upd _ _)
            (ev_upd _ _)))) (.inl rfl) g1, g2, g3, ?_⟩
          exact ((h4.le (by omega)).trans
            ((nextCall_frame d x1).trans (assign_frame asg d _))).trans g4
        | cont => exact absurd heb (noCont_exec n b hc _ _)
        | brk =>
          simp only [Option.some.injEq, Prod.mk.injEq] at he
          obtain ⟨rfl, rfl⟩ := he
          exact ⟨x1, ev_while_brk hw (ev_seq_exit h1 (by simp [xo])), h2, h3, h4.le (by omega)⟩
        | ret w =>
          simp only [Option.some.injEq, Prod.mk.injEq] at he
          obtain ⟨rfl, rfl⟩ := he
          exact ⟨x1, ev_while_exit hw (ev_seq_exit h1 (by simp [xo])) (.inl rfl), h2, h3,
            h4.le (by omega)⟩
        | exc w =>
          simp only [Option.some.injEq, Prod.mk.injEq] at he
          obtain ⟨rfl, rfl⟩ := he
          exact ⟨x1, ev_while_exit hw (ev_seq_exit h1 (by simp [xo])) (.inr rfl), h2, h3,
            h4.le (by omega)⟩

theorem holds_res {o : Out V} {x x' : XSt σ V} (h : Holds o x) (h1 : x'.res = x.res)
    (h2 : x'.err = x.err) : Holds o x' := by
  cases o <;> simp_all [Holds]

theorem xo_after (o o' : Out V) : xo (o.after o') = (xo o).after (xo o') := by
  cases o' <;> rfl

theorem try_step (dx : Bool) (n : Nat) (ih : StmtSim σ V dx n) (d : Nat) (b : Stmt σ V)
    (hs : Handlers σ V) (e : Stmt σ V) (hb : Ok b) (hh : OkH hs) (hoe : Ok e) (tb te : X σ V)
    (ths : XHandlers σ V) (htb : tr dx [] d b = some tb) (hth : trH dx [] d hs = some ths)
    (hte : tr dx [] d e = some te) (c : Cfg σ) (x : XSt σ V) (c' : Cfg σ) (o : Out V)
    (hss : x.s = c.s) (hr : x.res = none) (he : tryGo (exec n) b hs e c = some (c', o)) :
    ∃ x', EvT tb ths te x x' (xo o) ∧ x'.s = c'.s ∧ Holds o x' ∧ Frame d x x' := by
  unfold tryGo at he
  cases heb : exec n b c with
  | none => simp [heb] at he
  | some r =>
    obtain ⟨c1, o1⟩ := r
    obtain ⟨x1, h1, h2, h3, h4⟩ := ih d b hb tb htb c x c1 o1 hss hr heb
    rw [heb] at he
    cases o1 with
    | norm =>
      obtain ⟨x2, g1, g2, g3, g4⟩ := ih d e hoe te hte c1 x1 c' o h2 h3 he
      exact ⟨x2, .inl ⟨x1, h1, g1⟩, g2, g3, h4.trans g4⟩
    | exc y =>
      obtain ⟨p1, p2⟩ := pick_sim dx d hs ths hth x1 y h3.1
      simp only at he
      cases hp : hs.pick y with
      | none =>
        simp only [hp, Option.some.injEq, Prod.mk.injEq] at he
        obtain ⟨rfl, rfl⟩ := he
        exact ⟨x1, .inr (.inr (.inl ⟨h1, p1 hp, rfl⟩)), h2, h3, h4⟩
      | some p =>
        obtain ⟨h, hb'⟩ := p
        obtain ⟨tb', q1, q2⟩ := p2 h hb' hp
        have hcalm := OkH_pick hs hh y h hb' hp
        simp only [hp] at he
        cases hx : exec n hb' (c1.bind h (some y)) with
        | none => simp [hx] at he
        | some q =>
          obtain ⟨c2, o2⟩ := q
          simp only [hx, Option.some.injEq, Prod.mk.injEq] at he
          obtain ⟨rfl, rfl⟩ := he
          cases h with
          | none =>
            obtain ⟨x2, g1, g2, g3, g4⟩ := ih d hb' hcalm tb' q2 c1 x1 c2 o2 h2 h3.2 hx
            exact ⟨x2, .inr (.inl ⟨x1, tb', h1, q1, g1⟩), g2, g3, h4.trans g4⟩
          | some k =>
            obtain ⟨x2, g1, g2, g3, g4, _⟩ := calm_sim dx k d n hb' hcalm tb' q2
              (c1.bind (some k) (some y)) x1 c2 o2 h2 (by simp [Cfg.bind, h3.1]) h3.2 hx
            exact ⟨x2, .inr (.inl ⟨x1, tb', h1, q1, g1⟩), g2, g3, h4.trans g4⟩
    | brk =>
      simp only [Option.some.injEq, Prod.mk.injEq] at he
      obtain ⟨rfl, rfl⟩ := he
      exact ⟨x1, .inr (.inr (.inr ⟨h1, by simp [xo], by simp [xo]⟩)), h2, h3, h4⟩
    | cont =>
      simp only [Option.some.injEq, Prod.mk.injEq] at he
      obtain ⟨rfl, rfl⟩ := he
      exact ⟨x1, .inr (.inr (.inr ⟨h1, by simp [xo], by simp [xo]⟩)), h2, h3, h4⟩
    | ret w =>
      simp only [Option.some.injEq, Prod.mk.injEq] at he
      obtain ⟨rfl, rfl⟩ := he
      exact ⟨x1, .inr (.inr (.inr ⟨h1, by simp [xo], by simp [xo]⟩)), h2, h3, h4⟩

/-- How a `with` statement ends if its body ends in the given way. -/
def withOut (exE : Exc → σ → σ × Bool) (s : σ) : Out V → Out V
  | .exc e => if (exE e s).2 then .norm else .exc e
  | o => o

/-- The state in which a `with` statement ends if its body ends in the given way. -/
def withEnd (exN : σ → σ) (exE : Exc → σ → σ × Bool) (s : σ) : Out V → σ
  | .exc e => (exE e s).1
  | _ => exN s

/-- The two nested `try` nodes of a `with` statement. -/
theorem with_sim (dx : Bool) (d : Nat) (en exN : σ → σ) (exE : Exc → σ → σ × Bool) (bi : σ → σ)
    (tb : X σ V) (x : XSt σ V) (c c1 : Cfg σ) (o1 : Out V) (hs : x.s = c.s)
    (hsim : ∀ y : XSt σ V, y.s = bi (en c.s) → y.res = x.res → y.iters = x.iters →
      y.done = x.done → (∀ j, j < d → y.exc j = x.exc j) → y.exc d = true →
      ∃ x1, Ev tb y x1 (xo o1) ∧ x1.s = c1.s ∧ Holds o1 x1 ∧ Frame d x x1 ∧ x1.exc d = true) :
    ∃ x', Ev (.seq (.upd fun x => { x with s := en x.s })
        (.seq (.upd fun x => { x with exc := set x.exc d true })
          (.try
            (.try (.seq (.upd fun x => { x with s := bi x.s }) tb)
              (.cons (catches fun _ => true) (withHandler exE d) .nil) skip skip)
            .nil skip
            (.ite (fun x => x.exc d) (.upd fun x => { x with s := exN x.s }) skip)))) x x'
        (xo (withOut exE c1.s o1)) ∧
      x'.s = withEnd exN exE c1.s o1 ∧ Holds (withOut exE c1.s o1) x' ∧
      Frame d x x' := by
  obtain ⟨x1, h1, h2, h3, h4, h5⟩ := hsim
    { x with s := bi (en x.s), exc := set x.exc d true } (by simp [hs]) rfl rfl rfl
    (fun j hj => set_other _ _ (by omega)) (set_same _ _ _)
  have body : Ev (.seq (.upd fun x => { x with s := bi x.s }) tb)
      { x with s := en x.s, exc := set x.exc d true } x1 (xo o1) := ev_seq (ev_upd _ _) h1
  by_cases hx : ∃ e, o1 = .exc e
  · obtain ⟨e, rfl⟩ := hx
    have herr : x1.err = some e := h3.1
    have hpick : XHandlers.pick (.cons (catches fun _ => true) (withHandler exE d) .nil) x1 =
        some (withHandler exE d) := by simp [XHandlers.pick, catches, herr]
    cases hb : (exE e c1.s).2 with
    | true =>
      have hh : Ev (withHandler exE d) x1
          { x1 with exc := set x1.exc d false, s := (exE e x1.s).1 } .norm := by
        refine ev_seq (ev_upd _ _) (ev_ite_f ?_ ?_)
        · simp [exitFalse, herr, h2, hb]
        · have := ev_upd (exitCall exE) { x1 with exc := set x1.exc d false }
          simpa [exitCall, herr] using this
      simp only [withOut, withEnd, hb, if_true, Bool.false_eq_true, if_false]
      have hi := ev_try (f := skip) (e := skip) (.inr (.inl ⟨x1, _, body, hpick, hh⟩)) (ev_skip _)
      have ho : EvT (X.try _ _ skip skip) XHandlers.nil skip _ _ _ := .inl ⟨_, hi, ev_skip _⟩
      refine ⟨_, ev_seq (ev_upd _ _) (ev_seq (ev_upd _ _) (ev_try ho
        (ev_ite_f (c := fun x : XSt σ V => x.exc d)
          (a := .upd fun x : XSt σ V => { x with s := exN x.s }) (set_same _ _ _)
          (ev_skip _)))), ?_, ?_, ?_⟩
      · simp [h2]
      · simp [hb, Holds, h3.2]
      · exact h4.trans fun j hj => ⟨rfl, rfl, set_other _ _ (by omega)⟩
    | false =>
      have hh : Ev (withHandler exE d) x1
          { x1 with exc := set x1.exc d false, s := (exE e x1.s).1 } .exc := by
        refine ev_seq (ev_upd _ _) (ev_ite_t ?_ ?_)
        · simp [exitFalse, herr, h2, hb]
        · have := ev_raise (exitCall exE) { x1 with exc := set x1.exc d false }
          simpa [exitCall, herr] using this
      simp only [withOut, withEnd, hb, if_true, Bool.false_eq_true, if_false]
      have hi := ev_try (f := skip) (e := skip) (.inr (.inl ⟨x1, _, body, hpick, hh⟩)) (ev_skip _)
      have ho : EvT (X.try _ _ skip skip) XHandlers.nil skip _ _ _ :=
        .inr (.inr (.inl ⟨hi, rfl, rfl⟩))
      refine ⟨_, ev_seq (ev_upd _ _) (ev_seq (ev_upd _ _) (ev_try ho
        (ev_ite_f (c := fun x : XSt σ V => x.exc d)
          (a := .upd fun x : XSt σ V => { x with s := exN x.s }) (set_same _ _ _)
          (ev_skip _)))), ?_, ?_, ?_⟩
      · simp [h2]
      · simp [hb, Holds, h3.2, herr]
      · exact h4.trans fun j hj => ⟨rfl, rfl, set_other _ _ (by omega)⟩
  · have hne : ∀ e, o1 ≠ .exc e := fun e h => hx ⟨e, h⟩
    have hxo : xo o1 ≠ .exc := by cases o1 <;> simp [xo]; exact hne _ rfl
    have hi : Ev (.try (.seq (.upd fun x => { x with s := bi x.s }) tb)
        (.cons (catches fun _ => true) (withHandler exE d) .nil) skip skip)
        { x with s := en x.s, exc := set x.exc d true } x1 (xo o1) := by
      by_cases hn : o1 = .norm
      · subst hn
        exact ev_try (.inl ⟨x1, body, ev_skip _⟩) (ev_skip _)
      · refine ev_try (o := xo o1) (o' := .norm) (.inr (.inr (.inr ⟨body, ?_, hxo⟩))) (ev_skip _)
        cases o1 <;> simp [xo] ; exact hn rfl
    have ho : EvT (.try (.seq (.upd fun x => { x with s := bi x.s }) tb)
        (.cons (catches fun _ => true) (withHandler exE d) .nil) skip skip) .nil skip
        { x with s := en x.s, exc := set x.exc d true } x1 (xo o1) := by
      by_cases hn : o1 = .norm
      · subst hn
        exact .inl ⟨x1, hi, ev_skip _⟩
      · refine .inr (.inr (.inr ⟨hi, ?_, hxo⟩))
        cases o1 <;> simp [xo]; exact hn rfl
    have hfin := ev_seq (ev_upd (fun x => { x with s := en x.s }) x) (ev_seq
      (ev_upd (fun x : XSt σ V => { x with exc := set x.exc d true }) _) (ev_try ho
      (ev_ite_t (c := fun x => x.exc d) (b := skip) h5
        (ev_upd (fun x => { x with s := exN x.s }) x1))))
    refine ⟨{ x1 with s := exN x1.s }, ?_, ?_, ?_, ?_⟩
    · cases o1 with
      | exc e => exact absurd rfl (hne e)
      | _ => exact hfin
    · cases o1 with
      | exc e => exact absurd rfl (hne e)
      | _ => simp [withEnd, h2]
    · cases o1 with
      | exc e => exact absurd rfl (hne e)
      | _ => exact h3
    · exact h4.trans (.of_eq rfl rfl rfl)

theorem stmt_step (dx : Bool) (n : Nat) (ih : StmtSim σ V dx n)
    (ihw : WhileSim (σ := σ) (V := V) dx (n + 1)) : StmtSim σ V dx (n + 1) := by
    intro d s hok t ht c x c' o hs hr he
    cases s with
    | act f =>
      simp only [tr, Option.some.injEq] at ht; subst ht
      simp only [exec, Option.some.injEq, Prod.mk.injEq] at he
      obtain ⟨rfl, rfl⟩ := he
      exact ⟨_, ev_upd _ _, by simp [Cfg.upd, hs], hr, .of_eq rfl rfl rfl⟩
    | actH k f => simp [tr] at ht
    | raiseH k => simp [tr] at ht
    | call f =>
      simp only [tr, Option.some.injEq] at ht; subst ht
      simp only [exec, Option.some.injEq, Prod.mk.injEq] at he
      obtain ⟨rfl, rfl⟩ := he
      cases hf : (f c.s).2 with
      | none =>
        refine ⟨_, ev_seq (ev_upd _ _) (ev_ite_f ?_ (ev_skip _)), by simp [hs], hr, .of_eq rfl rfl rfl⟩
        simp [hs, hf]
      | some e =>
        refine ⟨_, ev_seq (ev_upd _ _) (ev_ite_t ?_ (ev_raise _ _)), by simp [hs], ⟨?_, hr⟩,
          .of_eq rfl rfl rfl⟩
        · simp [hs, hf]
        · simp [hs, hf]
    | raise f =>
      simp only [tr, Option.some.injEq] at ht; subst ht
      simp only [exec, Option.some.injEq, Prod.mk.injEq] at he
      obtain ⟨rfl, rfl⟩ := he
      exact ⟨_, ev_raise _ _, by simp [hs], ⟨by simp [hs], hr⟩, .of_eq rfl rfl rfl⟩
    | ret f =>
      simp only [tr, Option.some.injEq] at ht; subst ht
      simp only [exec, Option.some.injEq, Prod.mk.injEq] at he
      obtain ⟨rfl, rfl⟩ := he
      refine ⟨_, ev_ret _ _, by simp [hs], ?_, .of_eq rfl rfl rfl⟩
      simp [Holds, hs]
    | brk =>
      simp only [tr, Option.some.injEq] at ht; subst ht
      simp only [exec, Option.some.injEq, Prod.mk.injEq] at he
      obtain ⟨rfl, rfl⟩ := he
      exact ⟨_, ev_brk _, hs, hr, .refl _ _⟩
    | cont =>
      simp only [tr, Option.some.injEq] at ht; subst ht
      simp only [exec, Option.some.injEq, Prod.mk.injEq] at he
      obtain ⟨rfl, rfl⟩ := he
      exact ⟨_, ev_cont _, hs, hr, .refl _ _⟩
    | seq a b =>
      rw [Ok] at hok
      cases hta : tr dx [] d a with
      | none => simp [tr, hta] at ht
      | some ta =>
        cases htb : tr dx [] d b with
        | none => simp [tr, hta, htb] at ht
        | some tb =>
          simp only [tr, hta, htb, Option.some.injEq] at ht; subst ht
          rw [exec] at he
          cases hea : exec n a c with
          | none => simp [hea] at he
          | some r =>
            obtain ⟨c1, o1⟩ := r
            obtain ⟨x1, h1, h2, h3, h4⟩ := ih d a hok.1 ta hta c x c1 o1 hs hr hea
            by_cases hn : o1 = .norm
            · subst hn
              simp only [hea] at he
              obtain ⟨x2, g1, g2, g3, g4⟩ := ih d b hok.2 tb htb c1 x1 c' o h2 h3 he
              exact ⟨x2, ev_seq h1 g1, g2, g3, h4.trans g4⟩
            · have hee : (c1, o1) = (c', o) := by
                simp only [hea] at he
                cases o1 <;> first | exact absurd rfl hn | exact Option.some.inj he
              cases hee
              refine ⟨x1, ev_seq_exit h1 ?_, h2, h3, h4⟩
              cases o <;> first | exact absurd rfl hn | simp [xo]
    | ite g a b =>
      rw [Ok] at hok
      cases hta : tr dx [] d a with
      | none => simp [tr, hta] at ht
      | some ta =>
        cases htb : tr dx [] d b with
        | none => simp [tr, hta, htb] at ht
        | some tb =>
          simp only [tr, hta, htb, Option.some.injEq] at ht; subst ht
          rw [exec] at he
          cases hg : g c.s with
          | true =>
            simp only [hg, if_true] at he
            obtain ⟨x1, h1, h2⟩ := ih d a hok.1 ta hta c x c' o hs hr he
            exact ⟨x1, ev_ite_t (by simp [hs, hg]) h1, h2⟩
          | false =>
            simp only [hg, Bool.false_eq_true, if_false] at he
            obtain ⟨x1, h1, h2⟩ := ih d b hok.2 tb htb c x c' o hs hr he
            exact ⟨x1, ev_ite_f (by simp [hs, hg]) h1, h2⟩
    | «while» g b e =>
      rw [Ok] at hok
      cases htb : tr dx [] d b with
      | none => simp [tr, htb] at ht
      | some tb =>
        cases hte : tr dx [] d e with
        | none => simp [tr, htb, hte] at ht
        | some te =>
          simp only [tr, htb, hte, Option.some.injEq] at ht; subst ht
          exact after_loop (fun y => ev_upd _ y)
            (ihw d g b e hok.1 hok.2 tb te htb hte c x c' o hs hr he)
    | «for» it asg b e =>
      rw [Ok] at hok
      cases htb : tr dx [] (d + 1) b with
      | none => simp [tr, htb] at ht
      | some tb =>
        cases hte : tr dx [] (d + 1) e with
        | none => simp [tr, htb, hte] at ht
        | some te =>
          simp only [tr, htb, hte, Option.some.injEq] at ht; subst ht
          rw [exec] at he
          obtain ⟨x1, h1, h2, h3, h4⟩ := for_loop dx n ih d asg b e hok.1 hok.2.1 hok.2.2 tb te htb hte
            (it c.s) c { x with iters := set x.iters d (it x.s) } c' o hs hr
            (by rw [hs]; exact set_same _ _ _) he
          have h4' := (set_frame_iters (d := d) x (it x.s)).trans
            (((nextCall_frame d _).trans (assign_frame asg d _)).trans h4)
          have hw := h1
          have hpost : ∀ y : XSt σ V, Ev (.seq (.upd (setResultNone dx)) (.seq skip
              (.upd (setResultNone dx)))) y (setResultNone dx y) .norm := by
            intro y
            have := ev_seq (ev_upd (setResultNone dx) y) (ev_seq (ev_skip _)
              (ev_upd (setResultNone dx) _))
            have he : setResultNone dx (setResultNone dx y) = setResultNone dx y := by
              unfold setResultNone; cases dx <;> rfl
            rwa [he] at this
          by_cases hn : o = .norm
          · subst hn
            exact ⟨_, ev_seq (ev_upd _ _) (ev_seq (ev_upd _ _) (ev_seq (ev_upd _ _)
              (ev_seq hw (hpost x1)))), h2, rfl, h4'.trans (.of_eq rfl rfl rfl)⟩
          · refine ⟨x1, ev_seq (ev_upd _ _) (ev_seq (ev_upd _ _) (ev_seq (ev_upd _ _)
              (ev_seq_exit hw ?_))), h2, h3, h4'⟩
            cases o <;> first | exact absurd rfl hn | simp [xo]
    | «try» b hs' e f =>
      rw [Ok] at hok
      obtain ⟨hok1, hok2, hok3, hok4⟩ := hok
      cases htb : tr dx [] d b with
      | none => simp [tr, htb] at ht
      | some tb =>
      cases hth : trH dx [] d hs' with
      | none => simp [tr, htb, hth] at ht
      | some th =>
      cases hte : tr dx [] d e with
      | none => simp [tr, htb, hth, hte] at ht
      | some te =>
      cases htf : tr dx [] d f with
      | none => simp [tr, htb, hth, hte, htf] at ht
      | some tf =>
        simp only [tr, htb, hth, hte, htf, Option.some.injEq] at ht; subst ht
        rw [exec] at he
        cases hR : tryGo (exec n) b hs' e c with
        | none => simp [hR] at he
        | some r =>
          obtain ⟨c1, o1⟩ := r
          obtain ⟨x1, h1, h2, h3, h4⟩ := try_step dx n ih d b hs' e hok1 hok2 hok3 tb te th htb hth hte
            c x c1 o1 hs hr hR
          simp only [hR] at he
          cases hf : exec n f c1 with
          | none => simp [hf] at he
          | some q =>
            obtain ⟨c2, o2⟩ := q
            simp only [hf, Option.some.injEq, Prod.mk.injEq] at he
            obtain ⟨rfl, rfl⟩ := he
            rcases plain_sim dx [] d n f hok4 tf htf c1 x1 c2 o2 h2 hf with ⟨rfl, g⟩ | ⟨v, rfl, g⟩
            · exact ⟨_, ev_try h1 g, rfl, holds_res h3 rfl rfl, h4.trans (.of_eq rfl rfl rfl)⟩
            · exact ⟨_, ev_try h1 g, rfl, rfl, h4.trans (.of_eq rfl rfl rfl)⟩
    | «with» en exN exE bi b =>
      rw [Ok] at hok
      cases htb : tr dx [] (d + 1) b with
      | none => simp [tr, htb] at ht
      | some tb =>
        simp only [tr, htb, Option.some.injEq] at ht; subst ht
        rw [exec] at he
        cases heb : exec n b ((c.upd en).upd bi) with
        | none => simp [heb] at he
        | some r =>
          obtain ⟨c1, o1⟩ := r
          obtain ⟨x', g1, g2, g3, g4⟩ := with_sim dx d en exN exE bi tb x c c1 o1 hs (by
            intro y hy1 hy2 hy3 hy4 hy5 hy6
            obtain ⟨x1, h1, h2, h3, h4⟩ := ih (d + 1) b hok tb htb ((c.upd en).upd bi) y c1 o1 hy1
              (hy2.trans hr) heb
            refine ⟨x1, h1, h2, h3, fun j hj => ?_, (h4 d (by omega)).2.2.trans hy6⟩
            obtain ⟨a1, a2, a3⟩ := h4 j (by omega)
            exact ⟨a1.trans (by rw [hy3]), a2.trans (by rw [hy4]), a3.trans (hy5 j hj)⟩)
          simp only [heb] at he
          cases o1 with
          | exc e =>
            simp only [Option.some.injEq, Prod.mk.injEq] at he
            obtain ⟨rfl, rfl⟩ := he
            exact ⟨x', g1, g2, g3, g4⟩
          | _ =>
            simp only [Option.some.injEq, Prod.mk.injEq] at he
            obtain ⟨rfl, rfl⟩ := he
            exact ⟨x', g1, g2, g3, g4⟩

theorem sim_both (dx : Bool) : ∀ n, StmtSim σ V dx n ∧ WhileSim (σ := σ) (V := V) dx n
  | 0 => ⟨fun d s _ t _ c x c' o _ _ he => by simp [exec] at he,
      fun d g b e _ _ tb te _ _ c x c' o _ _ he => by simp [exec] at he⟩
  | n + 1 =>
    have hw := while_step dx n (sim_both dx n).1 (sim_both dx n).2
    ⟨stmt_step dx n (sim_both dx n).1 hw, hw⟩

end Nagini.Sif
