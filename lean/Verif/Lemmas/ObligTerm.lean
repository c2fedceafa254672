import Verif.Lemmas.ObligInv
/-!
Promised termination, and obligations that are discharged.
-/
set_option linter.unusedVariables false
set_option linter.unusedSimpArgs false
namespace Nagini.Oblig

open Nagini.Termination (Inst Entry check initMap tcond inhaled callCheck positive LoopState loopFlag loopEntry loopEnd
  loopPositive resetAmount check_iff positive_iff tcond_iff tcond_ignore_iff inhaled_pos Active)

variable {σ M : Type} {ct : Nat} {P : M → Method σ M} {B : Option Exit → σ → Hold → Prop} {R : List Nat}

/-- Every execution that does not get stuck reaches `G`. -/
inductive GEv (ct : Nat) (P : M → Method σ M) (R : List Nat) (G : GCfg σ M → Prop) : GCfg σ M → Prop
  | now {g} : G g → GEv ct P R G g
  | later {g} : (∀ g', GStep ct P R g g' → GEv ct P R G g') → GEv ct P R G g

/-- A heap contains another one. -/
def Ext (fr h : Hold) : Prop := (∀ r ∈ fr.b, r ∈ h.b) ∧ (∀ r ∈ fr.u, r ∈ h.u) ∧ fr.t ≤ h.t

theorem ext_give {is : List Inst} {fr : Hold} : Ext fr (giveAll is fr) := by
  obtain ⟨_, ht, hb, hu, _⟩ := giveAll_spec (is := is) (h := fr)
  exact ⟨hb, hu, by omega⟩

theorem ext_exit {inv : σ → Contract} {orig : Nat} {fr : Hold} {s : σ} (ho : orig = fr.t) :
    Ext fr (exitHold ct inv orig fr s) := by
  rw [exitHold_spec ho]
  exact ⟨ext_give.1, ext_give.2.1, Nat.le_refl _⟩

theorem ext_merge {fr h : Hold} : Ext fr (fr.merge h) :=
  ⟨fun r hr => List.mem_append_left _ hr, fun r hr => List.mem_append_left _ hr, Nat.le_add_right _ _⟩

theorem Ext.all {fr h : Hold} (hx : Ext fr h) {r : Nat} (hr : r ∈ fr.all) : r ∈ h.all := by
  rcases List.mem_append.1 hr with hr | hr
  · exact List.mem_append_left _ (hx.1 r hr)
  · exact List.mem_append_right _ (hx.2.1 r hr)

/-! ### Facts about verified statements -/

theorem call_facts {m : M} {arg : σ → σ} {back : σ → σ → σ} {K : List (GItem σ M)} {map : List Entry} {s : σ}
    {h h' : Hold} (hi : GInv ct P B R ⟨none, .stmt (.call m arg back) :: K, map, s, h⟩)
    (he : takeAll (check map) (insts ct ((P m).pre (arg s))) h = some h') :
    positive (insts ct ((P m).pre (arg s))) = true ∧
      callCheck map ct h'.t (leakFree h') (.python (insts ct ((P m).pre (arg s)))) = true := by
  obtain ⟨h1, h2, h'', h3, h4, h5⟩ := hi.wk
  rw [exhale_check_method, he] at h3
  obtain rfl := Option.some.inj h3
  exact ⟨h2, h4⟩

theorem loop_facts {c : σ → Bool} {inv : σ → σ → Contract} {body : Stmt σ M} {K : List (GItem σ M)} {map : List Entry}
    {s : σ} {h h' : Hold} (hi : GInv ct P B R ⟨none, .stmt (.loop c inv body) :: K, map, s, h⟩)
    (he : takeAll yes (insts ct (inv s s)) h = some h') :
    loopEntry ct h'.t (leakFree h') (loopState ct c (inv s) s) = true ∧
      loopPositive (loopState ct c (inv s) s) = true := by
  obtain ⟨h'', ⟨h1, h2, h3, h4⟩, _⟩ := hi.wk
  rw [exhale_yes_loop, he] at h3
  obtain rfl := Option.some.inj h3
  exact ⟨h4, h2⟩

theorem again_facts {c : σ → Bool} {inv : σ → Contract} {body : Stmt σ M} {flag : Bool} {s1 : σ} {orig : Nat} {fr : Hold}
    {K : List (GItem σ M)} {map : List Entry} {e : Option Exit} {s : σ} {h : Hold}
    (hi : GInv ct P B R ⟨e, .again c inv body flag s1 orig fr :: K, map, s, h⟩) (he : e = none ∨ e = some .cont) :
    loopEnd ct flag (loopState ct c inv s1) (loopState ct c inv s) = true ∧
      loopPositive (loopState ct c inv s) = true := by
  have := bodyPost_after he hi.wk.1
  exact ⟨this.1, this.2.2.1⟩

/-! ### Termination -/

/-- What is shown about a statement executed with the promise to terminate. -/
def TermAt (ct : Nat) (P : M → Method σ M) (B : Option Exit → σ → Hold → Prop) (R : List Nat) (G : GCfg σ M → Prop)
    (map : List Entry) (t : Stmt σ M) : Prop :=
  ∀ K s h, GInv ct P B R ⟨none, .stmt t :: K, map, s, h⟩ → 0 < h.t →
    (∀ e s' h', GInv ct P B R ⟨e, K, map, s', h'⟩ → 0 < h'.t → GEv ct P R G ⟨e, K, map, s', h'⟩) →
    GEv ct P R G ⟨none, .stmt t :: K, map, s, h⟩

/-- Loops that promise to terminate do so. -/
theorem again_term (hv : Verified ct P) {G : GCfg σ M → Prop} {map : List Entry} {c : σ → Bool} {inv : σ → Contract}
    {body : Stmt σ M} (hb : TermAt ct P B R G map body) {orig : Nat} {fr : Hold} {K : List (GItem σ M)}
    (hk : ∀ e s' h', GInv ct P B R ⟨e, K, map, s', h'⟩ → Ext fr h' → GEv ct P R G ⟨e, K, map, s', h'⟩) :
    ∀ (ρ : WithTop Nat) (s1 : σ), rank (initMap false (insts ct (inv s1))) ct = ρ → ∀ e s h,
      GInv ct P B R ⟨e, .again c inv body true s1 orig fr :: K, map, s, h⟩ →
      GEv ct P R G ⟨e, .again c inv body true s1 orig fr :: K, map, s, h⟩ := by
  intro ρ
  induction ρ using WellFoundedLT.induction with
  | ind ρ ih =>
    intro s1 hρ e s h hi
    refine .later fun g' hs => ?_
    have hi' := hi.step hv hs
    have ho : orig = fr.t := hi.promised.2.1
    cases hs with
    | again he hc ht hl =>
      obtain ⟨f1, f2⟩ := again_facts hi he
      obtain ⟨r1, r2⟩ := rank_tcond (loopPositive_pos hc f2) (loopEnd_promise f1 hc rfl)
      rw [hρ] at r1
      exact hb _ _ _ hi' (by rw [iter_t]; exact r2) fun e s' h' hx _ => ih _ r1 s rfl e s' h' hx
    | done he hc ht hl => exact hk _ _ _ hi' (ext_exit ho)
    | brk => exact hk _ _ _ hi' ext_merge
    | leave he => exact hk _ _ _ hi' ext_merge

/-- Calls return. -/
theorem ret_ev (hv : Verified ct P) {G : GCfg σ M → Prop} {K : List (GItem σ M)} {map map' : List Entry} {s0 : σ}
    {back : σ → σ → σ} {m : M} {s1 : σ} {fr : Hold} {e : Option Exit} {s : σ} {h : Hold}
    (hi : GInv ct P B R ⟨e, .ret s0 back map m s1 fr :: K, map', s, h⟩)
    (hk : ∀ e s' h', GInv ct P B R ⟨e, K, map, s', h'⟩ → (∃ is h0, takeAll yes is h = some h0 ∧ leakFree h0 = true ∧
      h' = giveAll is fr) → GEv ct P R G ⟨e, K, map, s', h'⟩) :
    GEv ct P R G ⟨e, .ret s0 back map m s1 fr :: K, map', s, h⟩ := by
  refine .later fun g' hs => ?_
  have hi' := hi.step hv hs
  cases hs with
  | ret he ht hl => exact hk _ _ _ hi' ⟨_, _, ht, hl, rfl⟩
  | raise ht hl => exact hk _ _ _ hi' ⟨_, _, ht, hl, rfl⟩

/-- Statements executed with the promise to terminate do so. -/
theorem term_at (hv : Verified ct P) {G : GCfg σ M → Prop} : ∀ (ρ : WithTop Nat) (map : List Entry), rank map ct = ρ →
    ∀ t, TermAt ct P B R G map t := by
  intro ρ
  induction ρ using WellFoundedLT.induction with
  | ind ρ ih =>
    intro map hρ t
    induction t with
    | act r =>
      intro K s h hi ht hk
      refine .later fun g' hs => ?_
      have hi' := hi.step hv hs
      cases hs
      exact hk _ _ _ hi' ht
    | acquire l =>
      intro K s h hi ht hk
      refine .later fun g' hs => ?_
      have hi' := hi.step hv hs
      cases hs
      exact hk _ _ _ hi' ht
    | release l =>
      intro K s h hi ht hk
      refine .later fun g' hs => ?_
      have hi' := hi.step hv hs
      cases hs
      rename_i h' he
      exact hk _ _ _ hi' (by rw [take_t he]; exact ht)
    | exit e =>
      intro K s h hi ht hk
      refine .later fun g' hs => ?_
      have hi' := hi.step hv hs
      cases hs
      exact hk _ _ _ hi' ht
    | call m arg back =>
      intro K s h hi ht hk
      refine .later fun g' hs => ?_
      have hi' := hi.step hv hs
      cases hs
      rename_i h' he
      obtain ⟨f1, f2⟩ := call_facts hi he
      have hft : 0 < h'.t := by rw [take_t he]; exact ht
      obtain ⟨r1, r2⟩ := rank_tcond f1 (callCheck_promise f2 (Or.inr hft))
      rw [hρ] at r1
      refine ih _ r1 _ rfl (P m).body _ _ _ hi' (by rw [entry_t]; exact r2) fun e s' h'' hx _ => ?_
      refine ret_ev hv hx fun e s' h3 hi3 hx3 => hk e s' h3 hi3 ?_
      obtain ⟨is, h0, _, _, rfl⟩ := hx3
      exact Nat.lt_of_lt_of_le hft ext_give.2.2
    | seq a b iha ihb =>
      intro K s h hi ht hk
      refine .later fun g' hs => ?_
      have hi' := hi.step hv hs
      cases hs
      refine iha _ _ _ hi' ht fun e s' h' hx hxt => ?_
      cases e with
      | none => exact ihb _ _ _ hx hxt hk
      | some e =>
        refine .later fun g'' hs' => ?_
        have hi'' := hx.step hv hs'
        cases hs'
        exact hk _ _ _ hi'' hxt
    | ite c a b iha ihb =>
      intro K s h hi ht hk
      refine .later fun g' hs => ?_
      have hi' := hi.step hv hs
      cases hs
      cases hc : c s with
      | true => simp only [hc, if_true] at hi' ⊢; exact iha _ _ _ hi' ht hk
      | false => simp only [hc, Bool.false_eq_true, if_false] at hi' ⊢; exact ihb _ _ _ hi' ht hk
    | tryExcept a b iha ihb =>
      intro K s h hi ht hk
      refine .later fun g' hs => ?_
      have hi' := hi.step hv hs
      cases hs
      refine iha _ _ _ hi' ht fun e s' h' hx hxt => ?_
      refine .later fun g'' hs' => ?_
      have hi'' := hx.step hv hs'
      cases hs' with
      | noExc => exact hk _ _ _ hi'' hxt
      | caught => exact ihb _ _ _ hi'' hxt hk
      | past hne => exact hk _ _ _ hi'' hxt
    | loop c inv body ihb =>
      intro K s h hi ht hk
      refine .later fun g' hs => ?_
      have hi' := hi.step hv hs
      cases hs with
      | enter hc he =>
        rename_i h'
        obtain ⟨f1, f2⟩ := loop_facts hi he
        have hft : 0 < h'.t := by rw [take_t he]; exact ht
        obtain ⟨r1, r2⟩ := loopEntry_promise f1 hc (Or.inr hft)
        rw [r1] at hi' ⊢
        refine ihb _ _ _ hi' (by rw [iter_t]; exact r2) fun e s' h'' hx _ => ?_
        refine again_term hv ihb (fun e s' h3 h3i h3x => ?_) _ _ rfl _ _ _ hx
        exact hk _ _ _ h3i (Nat.lt_of_lt_of_le hft h3x.2.2)
      | skip hc he =>
        refine hk _ _ _ hi' ?_
        rw [exit_t (take_t he).symm, take_t he]; exact ht

theorem term_any (hv : Verified ct P) {G : GCfg σ M → Prop} {map : List Entry} {t : Stmt σ M} :
    TermAt ct P B R G map t := term_at hv _ map rfl t

/-! ### Obligations -/

/-- The lock is not held any more. -/
def Gone (R : List Nat) (r : Nat) (g : GCfg σ M) : Prop := r ∉ g.total R

/-- How long it takes to discharge an obligation. -/
noncomputable def orank (map : List Entry) (h : Hold) (r : Nat) : WithTop (WithTop Nat) :=
  open Classical in if r ∈ h.b then ((rank map r : WithTop Nat) : WithTop (WithTop Nat)) else ⊤

theorem orank_b {map : List Entry} {h : Hold} {r : Nat} (hr : r ∈ h.b) : orank map h r = (rank map r : WithTop Nat) := by
  rw [orank, if_pos hr]

theorem orank_mono {map : List Entry} {h h' : Hold} {r : Nat} (hr : r ∈ h.b → r ∈ h'.b) :
    orank map h' r ≤ orank map h r := by
  by_cases hb : r ∈ h.b
  · rw [orank_b hb, orank_b (hr hb)]
  · rw [show orank map h r = ⊤ by rw [orank, if_neg hb]]; exact le_top

theorem not_both {h : Hold} {r : Nat} (hn : h.all.Nodup) (hb : r ∈ h.b) (hu : r ∈ h.u) : False :=
  (List.nodup_append.1 hn).2.2 r hb r hu rfl

theorem take_stay {chk : Nat → Int → Bool} {is : List Inst} {h h' : Hold} {r : Nat} (e : takeAll chk is h = some h')
    (hn : h.all.Nodup) (hr : r ∈ h'.all) (hb : r ∈ h.b) : r ∈ h'.b := by
  rcases List.mem_append.1 hr with hr | hr
  · exact hr
  · exact (not_both hn hb ((takeAll_spec e).2.2.2.1 r hr)).elim

theorem take_gone {chk : Nat → Int → Bool} {is : List Inst} {h h' : Hold} {r : Nat} (e : takeAll chk is h = some h')
    (hr : r ∈ h.all) (hn : r ∉ h'.all) : r ∈ keys is := by
  rcases List.mem_append.1 ((take_perm e).mem_iff.1 hr) with hx | hx
  · exact hx
  · exact (hn hx).elim

theorem take_bounded {chk : Nat → Int → Bool} {is : List Inst} {h h' : Hold} {r : Nat} (e : takeAll chk is h = some h')
    (hb : r ∈ h.b) (hn : r ∉ h'.all) : ∃ i ∈ is, i.guard = true ∧ i.term = false ∧ i.fresh = false ∧ i.key = r ∧
      chk r i.value = true :=
  (takeAll_spec e).2.2.2.2 r hb fun hx => hn (List.mem_append_left _ hx)

theorem take_give_b {chk : Nat → Int → Bool} {is : List Inst} {h h' fr : Hold} {r : Nat}
    (e : takeAll chk is h = some h') (hb : r ∈ h.b) (hn : r ∉ h'.all) : r ∈ (giveAll is fr).b := by
  obtain ⟨i, hi, h1, h2, h3, rfl, _⟩ := take_bounded e hb hn
  exact giveAll_spec.2.2.2.2.1 i hi h1 h2 h3

theorem take_give {chk : Nat → Int → Bool} {is : List Inst} {h h' fr : Hold} {r : Nat}
    (e : takeAll chk is h = some h') (hr : r ∈ h.all) (hn : r ∉ h'.all) : r ∈ (giveAll is fr).all :=
  give_perm.mem_iff.2 (List.mem_append_left _ (take_gone e hr hn))

theorem leakFree_not_mem {h : Hold} {r : Nat} (hl : leakFree h = true) : r ∉ h.all := by
  rw [leakFree_iff.1 hl]; exact List.not_mem_nil

theorem exit_b {inv : σ → Contract} {orig : Nat} {fr : Hold} {s : σ} (ho : orig = fr.t) {r : Nat}
    (h : r ∈ (giveAll (insts ct (inv s)) fr).b) : r ∈ (exitHold ct inv orig fr s).b := by
  rw [exitHold_spec ho]; exact h

theorem exit_all {inv : σ → Contract} {orig : Nat} {fr : Hold} {s : σ} (ho : orig = fr.t) {r : Nat}
    (h : r ∈ (giveAll (insts ct (inv s)) fr).all) : r ∈ (exitHold ct inv orig fr s).all := by
  rw [exitHold_spec ho]; exact h

theorem keys_nodup {chk : Nat → Int → Bool} {is : List Inst} {h h' : Hold} (e : takeAll chk is h = some h')
    (hn : h.all.Nodup) : (keys is).Nodup :=
  (List.nodup_append.1 ((take_perm e).nodup_iff.1 hn)).1

theorem entry_b {chk : Nat → Int → Bool} {c : Contract} {h h' : Hold} {r : Nat}
    (e : takeAll chk (insts ct c) h = some h') (hn : h.all.Nodup) (hr : r ∈ keys (insts ct c)) :
    r ∈ (entryHold ct c).b := by
  rw [entryHold_eq]; exact (start_spec.2.2 (keys_nodup e hn)).2 r hr

theorem iter_b {chk : Nat → Int → Bool} {inv : σ → Contract} {s : σ} {h h' : Hold} {r : Nat}
    (e : takeAll chk (insts ct (inv s)) h = some h') (hn : h.all.Nodup) (hr : r ∈ keys (insts ct (inv s))) :
    r ∈ (iterHold ct inv s).b := by
  rw [iterHold_eq]; exact (start_spec.2.2 (keys_nodup e hn)).2 r hr

/-- What is shown about a statement executed while an obligation is held. -/
def ObAt (ct : Nat) (P : M → Method σ M) (B : Option Exit → σ → Hold → Prop) (R : List Nat) (r : Nat)
    (map : List Entry) (ω : WithTop (WithTop Nat)) (t : Stmt σ M) : Prop :=
  ∀ K s h, orank map h r ≤ ω → GInv ct P B R ⟨none, .stmt t :: K, map, s, h⟩ → r ∈ h.all →
    (∀ e s' h', GInv ct P B R ⟨e, K, map, s', h'⟩ → r ∈ h'.all → (r ∈ h.b → r ∈ h'.b) →
      GEv ct P R (Gone R r) ⟨e, K, map, s', h'⟩) →
    GEv ct P R (Gone R r) ⟨none, .stmt t :: K, map, s, h⟩

/-- Loops do not pass obligations from iteration to iteration forever. -/
theorem again_ob (hv : Verified ct P) {r : Nat} {map : List Entry} {ω : WithTop (WithTop Nat)} {c : σ → Bool}
    {inv : σ → Contract} {body : Stmt σ M} (hω : ((rank map r : WithTop Nat) : WithTop (WithTop Nat)) ≤ ω)
    (hb : ObAt ct P B R r map ω body) {flag : Bool} {orig : Nat} {fr : Hold} {K : List (GItem σ M)}
    (hk : ∀ e s' h', GInv ct P B R ⟨e, K, map, s', h'⟩ → r ∈ h'.b → GEv ct P R (Gone R r) ⟨e, K, map, s', h'⟩) :
    ∀ (ρ : WithTop Nat) (s1 : σ), rank (initMap false (insts ct (inv s1))) r = ρ → ∀ e s h,
      GInv ct P B R ⟨e, .again c inv body flag s1 orig fr :: K, map, s, h⟩ → r ∈ h.b →
      GEv ct P R (Gone R r) ⟨e, .again c inv body flag s1 orig fr :: K, map, s, h⟩ := by
  intro ρ
  induction ρ using WellFoundedLT.induction with
  | ind ρ ih =>
    intro s1 hρ e s h hi hr
    refine .later fun g' hs => ?_
    have hi' := hi.step hv hs
    have ho : orig = fr.t := hi.promised.2.1
    have hn := total_nodup_h hi.nodup
    cases hs with
    | again he hc ht hl =>
      obtain ⟨f1, f2⟩ := again_facts hi he
      obtain ⟨i, hi1, hi2, hi3, hi4, hi5, hi6⟩ := take_bounded ht hr (leakFree_not_mem hl)
      have r1 := rank_lt (loopPositive_pos hc f2) hi1 hi2 hi4 hi5 hi6
      rw [hρ] at r1
      have hib := iter_b (inv := inv) ht hn (take_gone ht (List.mem_append_left _ hr) (leakFree_not_mem hl))
      refine hb _ _ _ (by rw [orank_b hib]; exact hω) hi' (List.mem_append_left _ hib) fun e s' h' hx h1 h2 => ?_
      exact ih _ r1 s rfl e s' h' hx (h2 hib)
    | done he hc ht hl => exact hk _ _ _ hi' (exit_b ho (take_give_b ht hr (leakFree_not_mem hl)))
    | brk => exact hk _ _ _ hi' (List.mem_append_right _ hr)
    | leave he => exact hk _ _ _ hi' (List.mem_append_right _ hr)

/-- Obligations held at the beginning of a statement are discharged, or held at its end. -/
theorem ob_at (hv : Verified ct P) {r : Nat} : ∀ (ω : WithTop (WithTop Nat)) (map : List Entry) (t : Stmt σ M),
    ObAt ct P B R r map ω t := by
  intro ω
  induction ω using WellFoundedLT.induction with
  | ind ω ih =>
    intro map t
    induction t with
    | act x =>
      intro K s h hω hi hr hk
      refine .later fun g' hs => ?_
      have hi' := hi.step hv hs
      cases hs
      exact hk _ _ _ hi' hr id
    | acquire l =>
      intro K s h hω hi hr hk
      refine .later fun g' hs => ?_
      have hi' := hi.step hv hs
      cases hs
      refine hk _ _ _ hi' ?_ id
      rcases List.mem_append.1 hr with hr | hr
      · exact List.mem_append_left _ hr
      · exact List.mem_append_right _ (List.mem_cons_of_mem _ hr)
    | release l =>
      intro K s h hω hi hr hk
      refine .later fun g' hs => ?_
      have hi' := hi.step hv hs
      cases hs
      rename_i h' he
      by_cases hx : r ∈ h'.all
      · exact hk _ _ _ hi' hx (take_stay he (total_nodup_h hi.nodup) hx)
      · refine .now fun hm => ?_
        rcases List.mem_append.1 hm with hm | hm
        · exact hx hm
        · exact (List.nodup_append.1 hi.nodup).2.2 r hr r hm rfl
    | exit e =>
      intro K s h hω hi hr hk
      refine .later fun g' hs => ?_
      have hi' := hi.step hv hs
      cases hs
      exact hk _ _ _ hi' hr id
    | call m arg back =>
      intro K s h hω hi hr hk
      refine .later fun g' hs => ?_
      have hi' := hi.step hv hs
      have hn := total_nodup_h hi.nodup
      cases hs
      rename_i h' he
      obtain ⟨f1, f2⟩ := call_facts hi he
      by_cases hx : r ∈ h'.all
      · obtain ⟨r1, r2⟩ := rank_tcond f1 (callCheck_promise f2 (Or.inl (not_leakFree hx)))
        refine term_any hv _ _ _ hi' (by rw [entry_t]; exact r2) fun e s' h'' hi'' _ => ?_
        refine ret_ev hv hi'' fun e s' h3 hi3 hx3 => ?_
        obtain ⟨is, h0, _, _, rfl⟩ := hx3
        exact hk _ _ _ hi3 (ext_give.all hx) fun hb => ext_give.1 r (take_stay he hn hx hb)
      · have heb := entry_b he hn (take_gone he hr hx)
        have hlt : orank (initMap false (insts ct ((P m).pre (arg s)))) (entryHold ct ((P m).pre (arg s))) r < ω := by
          refine lt_of_lt_of_le ?_ hω
          rw [orank_b heb]
          by_cases hb : r ∈ h.b
          · rw [orank_b hb]
            obtain ⟨i, hi1, hi2, hi3, hi4, hi5, hi6⟩ := take_bounded he hb hx
            exact WithTop.coe_lt_coe.2 (rank_lt f1 hi1 hi2 hi4 hi5 hi6)
          · rw [show orank map h r = ⊤ by rw [orank, if_neg hb]]
            exact WithTop.coe_lt_top _
        refine ih _ hlt _ (P m).body _ _ _ le_rfl hi' (List.mem_append_left _ heb) fun e s' h'' hi'' h1 h2 => ?_
        refine ret_ev hv hi'' fun e s' h3 hi3 hx3 => ?_
        obtain ⟨is, h0, ht, hl, rfl⟩ := hx3
        have := take_give_b (fr := h') ht (h2 heb) (leakFree_not_mem hl)
        exact hk _ _ _ hi3 (List.mem_append_left _ this) fun _ => this
    | seq a b iha ihb =>
      intro K s h hω hi hr hk
      refine .later fun g' hs => ?_
      have hi' := hi.step hv hs
      cases hs
      refine iha _ _ _ hω hi' hr fun e s' h' hx h1 h2 => ?_
      cases e with
      | none =>
        exact ihb _ _ _ ((orank_mono h2).trans hω) hx h1 fun e s' h3 hi3 h3r h3b => hk _ _ _ hi3 h3r (h3b ∘ h2)
      | some e =>
        refine .later fun g'' hs' => ?_
        have hi'' := hx.step hv hs'
        cases hs'
        exact hk _ _ _ hi'' h1 h2
    | ite c a b iha ihb =>
      intro K s h hω hi hr hk
      refine .later fun g' hs => ?_
      have hi' := hi.step hv hs
      cases hs
      cases hc : c s with
      | true => simp only [hc, if_true] at hi' ⊢; exact iha _ _ _ hω hi' hr hk
      | false => simp only [hc, Bool.false_eq_true, if_false] at hi' ⊢; exact ihb _ _ _ hω hi' hr hk
    | tryExcept a b iha ihb =>
      intro K s h hω hi hr hk
      refine .later fun g' hs => ?_
      have hi' := hi.step hv hs
      cases hs
      refine iha _ _ _ hω hi' hr fun e s' h' hx h1 h2 => ?_
      refine .later fun g'' hs' => ?_
      have hi'' := hx.step hv hs'
      cases hs' with
      | noExc => exact hk _ _ _ hi'' h1 h2
      | caught =>
        exact ihb _ _ _ ((orank_mono h2).trans hω) hi'' h1 fun e s' h3 hi3 h3r h3b => hk _ _ _ hi3 h3r (h3b ∘ h2)
      | past hne => exact hk _ _ _ hi'' h1 h2
    | loop c inv body ihb =>
      intro K s h hω hi hr hk
      refine .later fun g' hs => ?_
      have hi' := hi.step hv hs
      have hn := total_nodup_h hi.nodup
      cases hs with
      | enter hc he =>
        rename_i h'
        obtain ⟨f1, f2⟩ := loop_facts hi he
        by_cases hx : r ∈ h'.all
        · obtain ⟨r1, r2⟩ := loopEntry_promise f1 hc (Or.inl (not_leakFree hx))
          rw [r1] at hi' ⊢
          refine term_any hv _ _ _ hi' (by rw [iter_t]; exact r2) fun e s' h'' hx' _ => ?_
          refine again_term hv (term_any hv) (fun e s' h3 h3i h3x => ?_) _ _ rfl _ _ _ hx'
          exact hk _ _ _ h3i (h3x.all hx) fun hb => h3x.1 r (take_stay he hn hx hb)
        · have hib := iter_b (inv := inv s) he hn (take_gone he hr hx)
          have hω' : ((rank map r : WithTop Nat) : WithTop (WithTop Nat)) ≤ ω := by
            rw [← orank_b (map := map) hib]
            exact (orank_mono fun _ => hib).trans hω
          refine ihb _ _ _ (by rw [orank_b hib]; exact hω') hi' (List.mem_append_left _ hib)
            fun e s' h'' hx' h1 h2 => ?_
          refine again_ob hv hω' ihb (fun e s' h3 h3i h3b => ?_) _ _ rfl _ _ _ hx' (h2 hib)
          exact hk _ _ _ h3i (List.mem_append_left _ h3b) fun _ => h3b
      | skip hc he =>
        rename_i h'
        have ho := (take_t he).symm
        by_cases hx : r ∈ h'.all
        · exact hk _ _ _ hi' ((ext_exit ho).all hx) fun hb => (ext_exit ho).1 r (take_stay he hn hx hb)
        · exact hk _ _ _ hi' (exit_all ho (take_give he hr hx)) fun hb => exit_b ho (take_give_b he hb hx)

theorem ob_any (hv : Verified ct P) {r : Nat} {map : List Entry} {t : Stmt σ M} : ObAt ct P B R r map ⊤ t :=
  ob_at hv ⊤ map t

/-- Statements in the presence of obligations. -/
theorem stmt_gone (hv : Verified ct P) {r : Nat} {t : Stmt σ M} {K : List (GItem σ M)} {map : List Entry} {s : σ}
    {h : Hold} (hi : GInv ct P B R ⟨none, .stmt t :: K, map, s, h⟩) (hr : r ∈ h.all ++ frames K)
    (hk : ∀ e s' h', GInv ct P B R ⟨e, K, map, s', h'⟩ → r ∈ h'.all ++ frames K →
      GEv ct P R (Gone R r) ⟨e, K, map, s', h'⟩) : GEv ct P R (Gone R r) ⟨none, .stmt t :: K, map, s, h⟩ := by
  rcases List.mem_append.1 hr with hr | hr
  · exact ob_any hv _ _ _ le_top hi hr fun e s' h' h1 h2 _ => hk _ _ _ h1 (List.mem_append_left _ h2)
  · exact term_any hv _ _ _ hi (Promised.pos (K := K) hi.promised hr) fun e s' h' h1 _ =>
      hk _ _ _ h1 (List.mem_append_right _ hr)

/-- Every obligation is discharged eventually. -/
theorem gone (hv : Verified ct P) {r : Nat} : ∀ (K : List (GItem σ M)) (map : List Entry) (e : Option Exit) (s : σ)
    (h : Hold), GInv ct P B R ⟨e, K, map, s, h⟩ → r ∈ h.all ++ frames K →
    GEv ct P R (Gone R r) ⟨e, K, map, s, h⟩ := by
  intro K
  induction K with
  | nil => intro map e s h hi hr; exact .later fun g' hs => by cases hs
  | cons i K ih =>
    intro map e s h hi hr
    cases i with
    | stmt t =>
      cases e with
      | none => exact stmt_gone hv hi hr fun e s' h' h1 h2 => ih _ _ _ _ h1 h2
      | some e =>
        refine .later fun g' hs => ?_
        have hi' := hi.step hv hs
        cases hs
        exact ih _ _ _ _ hi' hr
    | handler t =>
      refine .later fun g' hs => ?_
      have hi' := hi.step hv hs
      cases hs with
      | noExc => exact ih _ _ _ _ hi' hr
      | caught => exact stmt_gone hv hi' hr fun e s' h' h1 h2 => ih _ _ _ _ h1 h2
      | past hne => exact ih _ _ _ _ hi' hr
    | again c inv body flag s1 orig fr =>
      have hn := total_nodup_h hi.nodup
      have ho : orig = fr.t := hi.promised.2.1
      have hframe : r ∈ fr.all ++ frames K → flag = true := by
        intro hx
        rcases List.mem_append.1 hx with hx | hx
        · exact (hi.promised.1 (Or.inl (not_leakFree hx))).1
        · exact (hi.promised.1 (Or.inr (Promised.pos (K := K) hi.promised.2.2 hx))).1
      by_cases hx : r ∈ fr.all ++ frames K
      · obtain rfl := hframe hx
        refine again_term hv (term_any hv) (fun e s' h3 h3i h3x => ?_) _ _ rfl _ _ _ hi
        refine ih _ _ _ _ h3i ?_
        rcases List.mem_append.1 hx with hx | hx
        · exact List.mem_append_left _ (h3x.all hx)
        · exact List.mem_append_right _ hx
      · have hrh : r ∈ h.all := by
          rcases List.mem_append.1 hr with hr | hr
          · exact hr
          · exact (hx hr).elim
        refine .later fun g' hs => ?_
        have hi' := hi.step hv hs
        cases hs with
        | again he hc ht hl =>
          have hib := iter_b (inv := inv) ht hn (take_gone ht hrh (leakFree_not_mem hl))
          refine ob_any hv _ _ _ le_top hi' (List.mem_append_left _ hib) fun e s' h' h1 h2 h3 => ?_
          exact again_ob hv le_top (ob_any hv) (fun e s' h4 h4i h4b => ih _ _ _ _ h4i
            (List.mem_append_left _ (List.mem_append_left _ h4b))) _ _ rfl _ _ _ h1 (h3 hib)
        | done he hc ht hl =>
          exact ih _ _ _ _ hi' (List.mem_append_left _ (exit_all ho (take_give ht hrh (leakFree_not_mem hl))))
        | brk =>
          exact ih _ _ _ _ hi' (List.mem_append_left _ (merge_all.mem_iff.2 (List.mem_append_right _ hrh)))
        | leave he =>
          exact ih _ _ _ _ hi' (List.mem_append_left _ (merge_all.mem_iff.2 (List.mem_append_right _ hrh)))
    | ret s0 back map' m s1 fr =>
      refine ret_ev hv hi fun e s' h3 hi3 hx3 => ih _ _ _ _ hi3 ?_
      obtain ⟨is, h0, ht, hl, rfl⟩ := hx3
      rcases List.mem_append.1 hr with hr | hr
      · exact List.mem_append_left _ (take_give ht hr (leakFree_not_mem hl))
      · rcases List.mem_append.1 hr with hr | hr
        · exact List.mem_append_left _ (ext_give.all hr)
        · exact List.mem_append_right _ hr

/-! ### Executions -/

/-- A thread in an execution of a verified program. -/
def Reached (ct : Nat) (P : M → Method σ M) (B : Option Exit → σ → Hold → Prop) (R : List Nat) (c : Cfg σ M) : Prop :=
  ∃ g, GInv ct P B R g ∧ Rel R g c

theorem Reached.step (hv : Verified ct P) {c c' : Cfg σ M} (h : Reached ct P B R c) (hs : Step P c c') :
    Reached ct P B R c' := by
  obtain ⟨g, hi, hr⟩ := h
  obtain ⟨g', hg, hr'⟩ := sim_step hv hi hr hs
  exact ⟨g', hi.step hv hg, hr'⟩

theorem Reached.steps (hv : Verified ct P) {c c' : Cfg σ M} (h : Reached ct P B R c) (hs : Steps P c c') :
    Reached ct P B R c' := by
  induction hs with
  | refl => exact h
  | step _ h2 ih => exact ih.step hv h2

theorem Reached.run (hv : Verified ct P) {run : Nat → Cfg σ M} (hinf : Infinite P run)
    (h : Reached ct P B R (run 0)) : ∀ n, Reached ct P B R (run n) := by
  intro n
  induction n with
  | zero => exact h
  | succ n ih => exact ih.step hv (hinf n)

theorem GEv.run (hv : Verified ct P) {run : Nat → Cfg σ M} (hinf : Infinite P run) {G : GCfg σ M → Prop} {g : GCfg σ M}
    (he : GEv ct P R G g) : ∀ n, GInv ct P B R g → Rel R g (run n) → ∃ m, n ≤ m ∧ ∃ g', G g' ∧ GInv ct P B R g' ∧
      Rel R g' (run m) := by
  induction he with
  | now hg => intro n hi hr; exact ⟨n, Nat.le_refl _, _, hg, hi, hr⟩
  | later _ ih =>
    intro n hi hr
    obtain ⟨g', hg, hr'⟩ := sim_step hv hi hr (hinf n)
    obtain ⟨m, hm, hx⟩ := ih g' hg (n + 1) (hi.step hv hg) hr'
    exact ⟨m, by omega, hx⟩

theorem starts_positive {m : M} {c : Cfg σ M} (h : Starts P m R c) :
    positive (insts ct ((P m).pre c.st)) = true := by
  rw [positive_iff]
  intro i hi hg hf
  obtain ⟨o, ho, rfl⟩ := List.mem_map.1 hi
  have := h.positive o ho
  cases o with
  | terminate g v => cases hg; exact this
  | release g l v =>
    cases v with
    | none => cases hf
    | some v => cases hg; exact this

theorem starts_inv (hv : Verified ct P) {m : M} {c : Cfg σ M} (h : Starts P m R c) :
    ∃ g, GInv ct P (methodPost ct (P m) c.st) R g ∧ Rel R g c ∧
      g = ⟨none, [.stmt (P m).body], initMap false (insts ct ((P m).pre c.st)), c.st, entryHold ct ((P m).pre c.st)⟩ := by
  have hperm : c.held.Perm ((entryHold ct ((P m).pre c.st)).all ++ R) := by
    refine h.held.trans ?_
    rw [← keys_insts (ct := ct)]
    exact entry_perm.symm.append_right _
  have hn := hperm.nodup_iff.1 h.nodup
  refine ⟨_, ?_, ?_, rfl⟩
  · exact ⟨hv m c.st h.pure (starts_positive h) (consistent_of_nodup (List.nodup_append.1 hn).1), hn, trivial⟩
  · exact ⟨h.mode, h.ctrl, rfl, hperm⟩

theorem starts_reached (hv : Verified ct P) {m : M} {c : Cfg σ M} (h : Starts P m R c) :
    Reached ct P (methodPost ct (P m) c.st) R c := by
  obtain ⟨g, h1, h2, _⟩ := starts_inv hv h
  exact ⟨g, h1, h2⟩

end Nagini.Oblig
