import Verif.Lemmas.ObligGhost
/-!
The invariant is preserved by steps, and executions of programs have permissions.
-/
set_option linter.unusedVariables false
set_option linter.unusedSimpArgs false
namespace Nagini.Oblig

open Nagini.Termination (Inst Entry check initMap tcond inhaled callCheck positive LoopState loopFlag loopEntry loopEnd
  loopPositive resetAmount check_iff positive_iff tcond_iff tcond_ignore_iff inhaled_pos Active)

variable {σ M : Type} {ct : Nat} {P : M → Method σ M} {B : Option Exit → σ → Hold → Prop} {R : List Nat}

theorem entry_t {c : Contract} : (entryHold ct c).t = inhaled (insts ct c) := by
  rw [entryHold_eq]; exact start_spec.2.1

theorem iter_t {inv : σ → Contract} {s : σ} : (iterHold ct inv s).t = inhaled (insts ct (inv s)) := by
  rw [iterHold_eq]; exact start_spec.2.1

theorem entry_perm {c : Contract} : (entryHold ct c).all.Perm (keys (insts ct c)) := by
  rw [entryHold_eq]; exact start_spec.1

theorem iter_perm {inv : σ → Contract} {s : σ} : (iterHold ct inv s).all.Perm (keys (insts ct (inv s))) := by
  rw [iterHold_eq]; exact start_spec.1

theorem give_perm {is : List Inst} {h : Hold} : (giveAll is h).all.Perm (keys is ++ h.all) := giveAll_spec.1

theorem exit_perm {inv : σ → Contract} {orig : Nat} {fr : Hold} {s : σ} (ho : orig = fr.t) :
    (exitHold ct inv orig fr s).all.Perm (keys (insts ct (inv s)) ++ fr.all) := by
  rw [exitHold_spec ho]; exact (giveAll_spec (h := fr)).1

theorem exit_t {inv : σ → Contract} {orig : Nat} {fr : Hold} {s : σ} (ho : orig = fr.t) :
    (exitHold ct inv orig fr s).t = fr.t := by
  rw [exitHold_spec ho]

theorem take_perm {chk : Nat → Int → Bool} {is : List Inst} {h h' : Hold} (e : takeAll chk is h = some h') :
    h.all.Perm (keys is ++ h'.all) := (takeAll_spec e).1

theorem take_t {chk : Nat → Int → Bool} {is : List Inst} {h h' : Hold} (e : takeAll chk is h = some h') :
    h'.t = h.t := (takeAll_spec e).2.1

theorem take_leakFree {chk : Nat → Int → Bool} {is : List Inst} {h h' : Hold} (e : takeAll chk is h = some h')
    (hl : leakFree h' = true) : h.all.Perm (keys is) := by
  have := take_perm e
  rw [leakFree_iff.1 hl, List.append_nil] at this
  exact this

theorem total_nodup_h {g : GCfg σ M} (hn : (g.total R).Nodup) : g.h.all.Nodup := (List.nodup_append.1 hn).1

theorem callCheck_promise {map : List Entry} {h' : Hold} {c : Contract}
    (h : callCheck map ct h'.t (leakFree h') (.python (insts ct c)) = true)
    (hx : leakFree h' = false ∨ 0 < h'.t) : tcond false map ct (insts ct c) = true := by
  simp only [callCheck, Bool.or_eq_true, Bool.and_eq_true, beq_iff_eq] at h
  rcases h with h | ⟨h, h2⟩
  · exact h
  · rcases hx with hx | hx
    · rw [h2] at hx; cases hx
    · omega

theorem loopEntry_promise {h' : Hold} {c : σ → Bool} {inv : σ → Contract} {s : σ}
    (h : loopEntry ct h'.t (leakFree h') (loopState ct c inv s) = true) (hc : c s = true)
    (hx : leakFree h' = false ∨ 0 < h'.t) :
    loopFlag ct (loopState ct c inv s) = true ∧ 0 < inhaled (insts ct (inv s)) := by
  have hf : loopFlag ct (loopState ct c inv s) = true := by
    simp only [loopEntry, Bool.or_eq_true, Bool.and_eq_true, beq_iff_eq, Bool.not_eq_true'] at h
    rcases h with (h | h) | ⟨h, h2⟩
    · exact h
    · rw [show (loopState ct c inv s).cond = c s from rfl, hc] at h; cases h
    · rcases hx with hx | hx
      · rw [h2] at hx; cases hx
      · omega
  exact ⟨hf, inhaled_pos.2 (tcond_ignore_iff.1 hf)⟩

theorem loopEnd_promise {c : σ → Bool} {inv : σ → Contract} {s1 s : σ} {flag : Bool}
    (h : loopEnd ct flag (loopState ct c inv s1) (loopState ct c inv s) = true) (hc : c s = true) (hf : flag = true) :
    tcond false (initMap false (insts ct (inv s1))) ct (insts ct (inv s)) = true := by
  subst hf
  simp only [loopEnd, Bool.not_true, Bool.false_or, Bool.or_eq_true, Bool.not_eq_true'] at h
  rcases h with h | h
  · rw [show (loopState ct c inv s).cond = c s from rfl, hc] at h; cases h
  · exact h

theorem loopPositive_pos {c : σ → Bool} {inv : σ → Contract} {s : σ} (hc : c s = true)
    (h : loopPositive (loopState ct c inv s) = true) : positive (insts ct (inv s)) = true := by
  simpa [loopPositive, loopState, hc] using h

theorem bodyPost_after {c : σ → Bool} {inv : σ → Contract} {flag : Bool} {s1 s : σ} {fr h : Hold}
    {Q : Option Exit → σ → Hold → Prop} {e : Option Exit} (he : e = none ∨ e = some .cont)
    (hb : bodyPost ct c inv flag s1 fr Q e s h) : loopAfter ct c inv flag s1 s h := by
  rcases he with rfl | rfl <;> exact hb

theorem merge_t {h h' : Hold} : h.t ≤ (h.merge h').t := Nat.le_add_right _ _

/-- The permissions of a call. -/
theorem call_perm {h h' : Hold} {c : Contract} {chk : Nat → Int → Bool} (e : takeAll chk (insts ct c) h = some h')
    (F : List Nat) : ((entryHold ct c).all ++ (h'.all ++ F)).Perm (h.all ++ F) := by
  refine (entry_perm.append_right _).trans ?_
  rw [← List.append_assoc]
  exact (take_perm e).symm.append_right _

theorem enter_perm {h h' : Hold} {inv : σ → Contract} {s : σ} {chk : Nat → Int → Bool}
    (e : takeAll chk (insts ct (inv s)) h = some h') (F : List Nat) :
    ((iterHold ct inv s).all ++ (h'.all ++ F)).Perm (h.all ++ F) := by
  refine (iter_perm.append_right _).trans ?_
  rw [← List.append_assoc]
  exact (take_perm e).symm.append_right _

theorem skip_perm {h h' : Hold} {inv : σ → Contract} {s : σ} {orig : Nat} {chk : Nat → Int → Bool}
    (e : takeAll chk (insts ct (inv s)) h = some h') (ho : orig = h'.t) (F : List Nat) :
    ((exitHold ct inv orig h' s).all ++ F).Perm (h.all ++ F) :=
  ((exit_perm ho).trans (take_perm e).symm).append_right _

theorem again_perm {h h3 fr : Hold} {inv : σ → Contract} {s : σ} {chk : Nat → Int → Bool}
    (e : takeAll chk (insts ct (inv s)) h = some h3) (hl : leakFree h3 = true) (F : List Nat) :
    ((iterHold ct inv s).all ++ F).Perm (h.all ++ F) :=
  (iter_perm.trans (take_leakFree e hl).symm).append_right _

theorem done_perm {h h3 fr : Hold} {inv : σ → Contract} {s : σ} {orig : Nat} {chk : Nat → Int → Bool}
    (e : takeAll chk (insts ct (inv s)) h = some h3) (hl : leakFree h3 = true) (ho : orig = fr.t) (F : List Nat) :
    ((exitHold ct inv orig fr s).all ++ F).Perm (h.all ++ (fr.all ++ F)) := by
  rw [← List.append_assoc]
  exact ((exit_perm ho).trans ((take_leakFree e hl).symm.append_right _)).append_right _

theorem ret_perm {h h3 fr : Hold} {is : List Inst} {chk : Nat → Int → Bool}
    (e : takeAll chk is h = some h3) (hl : leakFree h3 = true) (F : List Nat) :
    ((giveAll is fr).all ++ F).Perm (h.all ++ (fr.all ++ F)) := by
  rw [← List.append_assoc]
  exact (give_perm.trans ((take_leakFree e hl).symm.append_right _)).append_right _

theorem merge_perm {h fr : Hold} (F : List Nat) : ((fr.merge h).all ++ F).Perm (h.all ++ (fr.all ++ F)) := by
  rw [← List.append_assoc]
  exact (merge_all.trans List.perm_append_comm).append_right _

theorem release_perm {l : Nat} {h h' : Hold} {chk : Nat → Int → Bool}
    (e : takeAll chk (insts ct (releasePre l)) h = some h') : h.all.Perm (l :: h'.all) := take_perm e

/-- The invariant is preserved. -/
theorem GInv.step (hv : Verified ct P) {g g' : GCfg σ M} (hs : GStep ct P R g g') (hi : GInv ct P B R g) :
    GInv ct P B R g' := by
  obtain ⟨hw, hn, hp⟩ := hi
  cases hs with
  | act hr => exact ⟨hw _ hr, hn, hp⟩
  | acquire hl =>
    rename_i l K map s h
    obtain ⟨_, _, h', h3, h4, h5⟩ := hw
    rw [exhale_check_method] at h3
    have hh : h' = h := (Option.some.inj h3).symm
    subst hh
    have hk := callK_of h5
    have hn' : (GCfg.total R ⟨none, K, map, s, { h' with u := l s :: h'.u }⟩ : List Nat).Nodup := by
      have hperm : (GCfg.total R ⟨none, K, map, s, { h' with u := l s :: h'.u }⟩).Perm
          (l s :: (h'.all ++ (frames K ++ R))) := by
        show ((h'.b ++ l s :: h'.u) ++ (frames K ++ R)).Perm _
        exact List.perm_middle.append_right _
      exact hperm.nodup_iff.2 (List.nodup_cons.2 ⟨hl, hn⟩)
    refine ⟨?_, hn', hp⟩
    exact hk false s ⟨rfl, rfl⟩ (consistent_of_nodup (total_nodup_h hn'))
  | release he =>
    rename_i l K map s h h'
    obtain ⟨_, _, h'', h3, h4, h5⟩ := hw
    rw [exhale_check_method, he] at h3
    obtain rfl := Option.some.inj h3
    have hk := callK_of h5
    have hn' : (GCfg.total R ⟨none, K, map, s, h'⟩ : List Nat).Nodup := by
      have hperm : (h.all ++ (frames K ++ R)).Perm (l s :: (h'.all ++ (frames K ++ R))) :=
        (release_perm he).append_right _
      exact (List.nodup_cons.1 (hperm.nodup_iff.1 hn)).2
    refine ⟨?_, hn', ?_⟩
    · exact hk false s ⟨rfl, rfl⟩ (consistent_of_nodup (total_nodup_h hn'))
    · show Promised K h'.t
      rw [take_t he]; exact hp
  | exit => exact ⟨hw, hn, hp⟩
  | call he =>
    rename_i m arg back K map s h h'
    obtain ⟨h1, h2, h'', h3, h4, h5⟩ := hw
    rw [exhale_check_method, he] at h3
    obtain rfl := Option.some.inj h3
    have hperm := call_perm he (frames K ++ R)
    have hn' := hperm.nodup_iff.2 hn
    refine ⟨?_, ?_, ?_⟩
    · refine wp_mono _ (fun e s h hx => ?_) _ _
        (hv m (arg s) h1 h2 (consistent_of_nodup (List.nodup_append.1 hn').1))
      exact ⟨hx, callK_of h5⟩
    · show ((entryHold ct ((P m).pre (arg s))).all ++ ((h'.all ++ frames K) ++ R)).Nodup
      rw [List.append_assoc]; exact hn'
    · refine ⟨fun hx => ?_, ?_⟩
      · show 0 < (entryHold ct _).t
        rw [entry_t]; exact (rank_tcond h2 (callCheck_promise h4 hx)).2
      · show Promised K h'.t
        rw [take_t he]; exact hp
  | seq => exact ⟨hw, hn, hp⟩
  | ite =>
    rename_i c a b K map s h
    refine ⟨?_, hn, hp⟩
    have hw : wp ct P map (.ite c a b) (WK ct P B K map) s h := hw
    rw [wp] at hw
    show wp ct P map (if c s then a else b) (WK ct P B K map) s h
    split at hw <;> rename_i hc <;> simp only [hc] <;> exact hw
  | enter hc he =>
    rename_i c inv body K map s h h'
    obtain ⟨h'', ⟨h1, h2, h3, h4⟩, h5, h6⟩ := hw
    rw [exhale_yes_loop, he] at h3
    obtain rfl := Option.some.inj h3
    have hperm := enter_perm (inv := inv s) he (frames K ++ R)
    have hn' := hperm.nodup_iff.2 hn
    refine ⟨?_, ?_, ?_⟩
    · refine wp_mono _ (fun e s h hx => ?_) _ _
        (h5 s hc h1 h2 (consistent_of_nodup (List.nodup_append.1 hn').1))
      exact ⟨hx, h5, h6⟩
    · show ((iterHold ct (inv s) s).all ++ ((h'.all ++ frames K) ++ R)).Nodup
      rw [List.append_assoc]; exact hn'
    · refine ⟨fun hx => ?_, (take_t he).symm, ?_⟩
      · show _ ∧ 0 < (iterHold ct (inv s) s).t
        rw [iter_t]
        exact loopEntry_promise h4 hc hx
      · show Promised K h'.t
        rw [take_t he]; exact hp
  | skip hc he =>
    rename_i c inv body K map s h h'
    obtain ⟨h'', ⟨h1, h2, h3, h4⟩, h5, h6⟩ := hw
    rw [exhale_yes_loop, he] at h3
    obtain rfl := Option.some.inj h3
    have ht := take_t he
    have hn' := (skip_perm he ht.symm (frames K ++ R)).nodup_iff.2 hn
    refine ⟨h6 s hc h1 (consistent_of_nodup (List.nodup_append.1 hn').1), hn', ?_⟩
    show Promised K (exitHold ct (inv s) h.t h' s).t
    rw [exit_t ht.symm, ht]; exact hp
  | tryExcept => exact ⟨hw, hn, hp⟩
  | noExc => exact ⟨hw, hn, hp⟩
  | caught => exact ⟨hw, hn, hp⟩
  | past hne =>
    refine ⟨?_, hn, hp⟩
    have hw : tryPost _ _ _ _ _ := hw
    unfold tryPost at hw
    rw [if_neg (by simpa using hne)] at hw
    exact hw
  | drop => exact ⟨hw, hn, hp⟩
  | again he hc ht hl =>
    rename_i e c inv body flag s1 orig fr K map s h h3
    obtain ⟨h1, h2, h2'⟩ := hw
    obtain ⟨h4, h5, h6, _⟩ := bodyPost_after he h1
    have hn' := (again_perm (fr := fr) ht hl ((fr.all ++ frames K) ++ R)).nodup_iff.2 hn
    refine ⟨?_, hn', ?_⟩
    · refine wp_mono _ (fun e s h hx => ?_) _ _ (h2 s hc h5 h6 (consistent_of_nodup (List.nodup_append.1 hn').1))
      exact ⟨hx, h2, h2'⟩
    · refine ⟨fun hx => ?_, hp.2.1, hp.2.2⟩
      have hf := (hp.1 hx).1
      refine ⟨hf, ?_⟩
      show 0 < (iterHold ct inv s).t
      rw [iter_t]
      exact (rank_tcond (loopPositive_pos hc h6) (loopEnd_promise h4 hc hf)).2
  | done he hc ht hl =>
    rename_i e c inv body flag s1 orig fr K map s h h3
    obtain ⟨h1, h2, h2'⟩ := hw
    obtain ⟨h4, h5, h6, _⟩ := bodyPost_after he h1
    have ho : orig = fr.t := hp.2.1
    have hn0 : (h.all ++ ((fr.all ++ frames K) ++ R)).Nodup := hn
    rw [List.append_assoc] at hn0
    have hn' := (done_perm ht hl ho (frames K ++ R)).nodup_iff.2 hn0
    refine ⟨h2' s hc h5 (consistent_of_nodup (List.nodup_append.1 hn').1), hn', ?_⟩
    show Promised K (exitHold ct inv orig fr s).t
    rw [exit_t ho]; exact hp.2.2
  | brk =>
    rename_i c inv body flag s1 orig fr K map s h
    have hn0 : (h.all ++ ((fr.all ++ frames K) ++ R)).Nodup := hn
    rw [List.append_assoc] at hn0
    have hn' := (merge_perm (frames K ++ R)).nodup_iff.2 hn0
    exact ⟨hw.1 (consistent_of_nodup (List.nodup_append.1 hn').1), hn', hp.2.2.mono merge_t⟩
  | leave he =>
    rename_i e c inv body flag s1 orig fr K map s h
    have hn0 : (h.all ++ ((fr.all ++ frames K) ++ R)).Nodup := hn
    rw [List.append_assoc] at hn0
    have hn' := (merge_perm (frames K ++ R)).nodup_iff.2 hn0
    refine ⟨?_, hn', hp.2.2.mono merge_t⟩
    rcases he with rfl | rfl <;> exact hw.1 (consistent_of_nodup (List.nodup_append.1 hn').1)
  | ret he ht hl =>
    rename_i e s0 back map' m s1 fr K map s h h'
    obtain ⟨h1, h2⟩ := hw
    have h1' : endOk ct ((P m).post false s1 s) h := by rcases he with rfl | rfl <;> exact h1
    have hn0 : (h.all ++ ((fr.all ++ frames K) ++ R)).Nodup := hn
    rw [List.append_assoc] at hn0
    have hn' := (ret_perm ht hl (frames K ++ R)).nodup_iff.2 hn0
    refine ⟨h2 false s h1'.1 (consistent_of_nodup (List.nodup_append.1 hn').1), hn', hp.2.mono ?_⟩
    have := (giveAll_spec (is := insts ct ((P m).post false s1 s)) (h := fr)).2.1
    show fr.t ≤ (giveAll _ fr).t
    omega
  | raise ht hl =>
    rename_i s0 back map' m s1 fr K map s h h'
    obtain ⟨h1, h2⟩ := hw
    have hn0 : (h.all ++ ((fr.all ++ frames K) ++ R)).Nodup := hn
    rw [List.append_assoc] at hn0
    have hn' := (ret_perm ht hl (frames K ++ R)).nodup_iff.2 hn0
    refine ⟨h2 true s h1.1 (consistent_of_nodup (List.nodup_append.1 hn').1), hn', hp.2.mono ?_⟩
    have := (giveAll_spec (is := insts ct ((P m).post true s1 s)) (h := fr)).2.1
    show fr.t ≤ (giveAll _ fr).t
    omega

/-- A thread and its permissions. -/
structure Rel (R : List Nat) (g : GCfg σ M) (c : Cfg σ M) : Prop where
  mode : c.mode = g.mode
  ctrl : c.ctrl = g.ctrl.map GItem.erase
  st : c.st = g.st
  held : c.held.Perm (g.total R)

theorem erase_cons {i : Item σ M} {K : List (Item σ M)} {L : List (GItem σ M)}
    (h : i :: K = L.map GItem.erase) : ∃ j J, L = j :: J ∧ i = j.erase ∧ K = J.map GItem.erase := by
  cases L with
  | nil => cases h
  | cons j J => exact ⟨j, J, rfl, by simpa using (List.cons.inj h).1, by simpa using (List.cons.inj h).2⟩

theorem erase_stmt {s : Stmt σ M} {j : GItem σ M} (h : Item.stmt s = j.erase) : j = .stmt s := by
  cases j <;> cases h; rfl

theorem erase_handler {s : Stmt σ M} {j : GItem σ M} (h : Item.handler s = j.erase) : j = .handler s := by
  cases j <;> cases h; rfl

theorem erase_again {c : σ → Bool} {body : Stmt σ M} {j : GItem σ M} (h : Item.again c body = j.erase) :
    ∃ inv flag s1 orig fr, j = .again c inv body flag s1 orig fr := by
  cases j <;> cases h; exact ⟨_, _, _, _, _, rfl⟩

theorem erase_ret {s0 : σ} {back : σ → σ → σ} {j : GItem σ M} (h : Item.ret s0 back = j.erase) :
    ∃ map m s1 fr, j = .ret s0 back map m s1 fr := by
  cases j <;> cases h; exact ⟨_, _, _, _, rfl⟩

/-- Every step of a thread is a step with permissions. -/
theorem sim_step (hv : Verified ct P) {g : GCfg σ M} {c c' : Cfg σ M} (hi : GInv ct P B R g) (hr : Rel R g c)
    (hs : Step P c c') : ∃ g', GStep ct P R g g' ∧ Rel R g' c' := by
  obtain ⟨mode, ctrl, map, st, h⟩ := g
  obtain ⟨r1, r2, r3, r4⟩ := hr
  obtain ⟨hw, hn, hp⟩ := hi
  simp only at r1 r2 r3
  cases hs with
  | act hx =>
    obtain ⟨j, J, rfl, hj, hJ⟩ := erase_cons r2
    obtain rfl := erase_stmt hj
    subst r1 r3
    exact ⟨_, .act hx, rfl, hJ, rfl, r4⟩
  | acquire hl =>
    obtain ⟨j, J, rfl, hj, hJ⟩ := erase_cons r2
    obtain rfl := erase_stmt hj
    subst r1 r3
    refine ⟨_, .acquire (fun hm => hl (r4.mem_iff.2 hm)), rfl, hJ, rfl, ?_⟩
    refine (r4.cons _).trans ?_
    show (_ :: (h.all ++ (frames J ++ R))).Perm ((h.b ++ _ :: h.u) ++ (frames J ++ R))
    exact List.perm_middle.symm.append_right _
  | release hl =>
    obtain ⟨j, J, rfl, hj, hJ⟩ := erase_cons r2
    obtain rfl := erase_stmt hj
    subst r1 r3
    obtain ⟨_, _, h'', h3, h4, h5⟩ := hw
    rw [exhale_check_method] at h3
    refine ⟨_, .release h3, rfl, hJ, rfl, ?_⟩
    have hperm := (release_perm h3).append_right (frames J ++ R)
    exact ((List.perm_cons_erase hl).symm.trans (r4.trans hperm)).cons_inv
  | exit =>
    obtain ⟨j, J, rfl, hj, hJ⟩ := erase_cons r2
    obtain rfl := erase_stmt hj
    subst r1 r3
    exact ⟨_, .exit, rfl, hJ, rfl, r4⟩
  | call =>
    obtain ⟨j, J, rfl, hj, hJ⟩ := erase_cons r2
    obtain rfl := erase_stmt hj
    subst r1 r3
    obtain ⟨h1, h2, h'', h3, h4, h5⟩ := hw
    rw [exhale_check_method] at h3
    refine ⟨_, .call h3, rfl, by simp [GItem.erase, hJ], rfl, r4.trans ?_⟩
    have := call_perm (ct := ct) h3 (frames J ++ R)
    rw [← List.append_assoc h''.all] at this
    exact this.symm
  | seq =>
    obtain ⟨j, J, rfl, hj, hJ⟩ := erase_cons r2
    obtain rfl := erase_stmt hj
    subst r1 r3
    exact ⟨_, .seq, rfl, by simp [GItem.erase, hJ], rfl, r4⟩
  | ite =>
    obtain ⟨j, J, rfl, hj, hJ⟩ := erase_cons r2
    obtain rfl := erase_stmt hj
    subst r1 r3
    exact ⟨_, .ite, rfl, by simp [GItem.erase, hJ], rfl, r4⟩
  | enter hc =>
    obtain ⟨j, J, rfl, hj, hJ⟩ := erase_cons r2
    obtain rfl := erase_stmt hj
    subst r1 r3
    obtain ⟨h'', ⟨h1, h2, h3, h4⟩, h5, h6⟩ := hw
    rw [exhale_yes_loop] at h3
    refine ⟨_, .enter hc h3, rfl, by simp [GItem.erase, hJ], rfl, r4.trans ?_⟩
    have := enter_perm h3 (frames J ++ R)
    rw [← List.append_assoc h''.all] at this
    exact this.symm
  | skip hc =>
    obtain ⟨j, J, rfl, hj, hJ⟩ := erase_cons r2
    obtain rfl := erase_stmt hj
    subst r1 r3
    obtain ⟨h'', ⟨h1, h2, h3, h4⟩, h5, h6⟩ := hw
    rw [exhale_yes_loop] at h3
    exact ⟨_, .skip hc h3, rfl, hJ, rfl, r4.trans (skip_perm h3 (take_t h3).symm _).symm⟩
  | tryExcept =>
    obtain ⟨j, J, rfl, hj, hJ⟩ := erase_cons r2
    obtain rfl := erase_stmt hj
    subst r1 r3
    exact ⟨_, .tryExcept, rfl, by simp [GItem.erase, hJ], rfl, r4⟩
  | noExc =>
    obtain ⟨j, J, rfl, hj, hJ⟩ := erase_cons r2
    obtain rfl := erase_handler hj
    subst r1 r3
    exact ⟨_, .noExc, rfl, hJ, rfl, r4⟩
  | caught =>
    obtain ⟨j, J, rfl, hj, hJ⟩ := erase_cons r2
    obtain rfl := erase_handler hj
    subst r1 r3
    exact ⟨_, .caught, rfl, by simp [GItem.erase, hJ], rfl, r4⟩
  | past hne =>
    obtain ⟨j, J, rfl, hj, hJ⟩ := erase_cons r2
    obtain rfl := erase_handler hj
    subst r1 r3
    exact ⟨_, .past hne, rfl, hJ, rfl, r4⟩
  | drop =>
    obtain ⟨j, J, rfl, hj, hJ⟩ := erase_cons r2
    obtain rfl := erase_stmt hj
    subst r1 r3
    exact ⟨_, .drop, rfl, hJ, rfl, r4⟩
  | again he hc =>
    obtain ⟨j, J, rfl, hj, hJ⟩ := erase_cons r2
    obtain ⟨inv, flag, s1, orig, fr, rfl⟩ := erase_again hj
    subst r1 r3
    obtain ⟨h1, h2, h2'⟩ := hw
    obtain ⟨h4, h5, h6, h3, h7, h8⟩ := bodyPost_after he h1
    rw [exhale_check_loop] at h7
    exact ⟨_, .again he hc h7 h8, rfl, by simp [GItem.erase, hJ], rfl, r4.trans (again_perm (fr := fr) h7 h8 _).symm⟩
  | done he hc =>
    obtain ⟨j, J, rfl, hj, hJ⟩ := erase_cons r2
    obtain ⟨inv, flag, s1, orig, fr, rfl⟩ := erase_again hj
    subst r1 r3
    obtain ⟨h1, h2, h2'⟩ := hw
    obtain ⟨h4, h5, h6, h3, h7, h8⟩ := bodyPost_after he h1
    rw [exhale_check_loop] at h7
    refine ⟨_, .done he hc h7 h8, rfl, hJ, rfl, r4.trans ?_⟩
    have := done_perm h7 h8 hp.2.1 (frames J ++ R)
    rw [← List.append_assoc fr.all] at this
    exact this.symm
  | brk =>
    obtain ⟨j, J, rfl, hj, hJ⟩ := erase_cons r2
    obtain ⟨inv, flag, s1, orig, fr, rfl⟩ := erase_again hj
    subst r1 r3
    refine ⟨_, .brk, rfl, hJ, rfl, r4.trans ?_⟩
    have := merge_perm (h := h) (fr := fr) (frames J ++ R)
    rw [← List.append_assoc fr.all] at this
    exact this.symm
  | leave he =>
    obtain ⟨j, J, rfl, hj, hJ⟩ := erase_cons r2
    obtain ⟨inv, flag, s1, orig, fr, rfl⟩ := erase_again hj
    subst r1 r3
    refine ⟨_, .leave he, rfl, hJ, rfl, r4.trans ?_⟩
    have := merge_perm (h := h) (fr := fr) (frames J ++ R)
    rw [← List.append_assoc fr.all] at this
    exact this.symm
  | ret he =>
    rename_i e s0 back K s H
    obtain ⟨j, J, rfl, hj, hJ⟩ := erase_cons r2
    obtain ⟨map', m, s1, fr, rfl⟩ := erase_ret hj
    subst r1 r3
    obtain ⟨h1, h2⟩ := hw
    have h1' : endOk ct ((P m).post false s1 s) h := by rcases he with rfl | rfl <;> exact h1
    obtain ⟨_, h3, h7, h8⟩ := h1'
    rw [exhale_yes_method] at h7
    refine ⟨_, .ret he h7 h8, rfl, hJ, rfl, r4.trans ?_⟩
    have := ret_perm (fr := fr) h7 h8 (frames J ++ R)
    rw [← List.append_assoc fr.all] at this
    exact this.symm
  | raise =>
    obtain ⟨j, J, rfl, hj, hJ⟩ := erase_cons r2
    obtain ⟨map', m, s1, fr, rfl⟩ := erase_ret hj
    subst r1 r3
    obtain ⟨⟨_, h3, h7, h8⟩, h2⟩ := hw
    rw [exhale_yes_method] at h7
    refine ⟨_, .raise h7 h8, rfl, hJ, rfl, r4.trans ?_⟩
    have := ret_perm (fr := fr) h7 h8 (frames J ++ R)
    rw [← List.append_assoc fr.all] at this
    exact this.symm

end Nagini.Oblig
