import Verif.Lemmas.CfgJump

/-! The generated control flow graph simulates Python's executions. -/
namespace Nagini.Cfg

set_option linter.unusedVariables false
set_option linter.unusedSimpArgs false

variable {σ Val Exc Ty : Type} {P : List (Instr σ Val Exc)}

/-! ### Steps -/

theorem st_op {f : M σ Val Exc → Option (M σ Val Exc)} {m m' : M σ Val Exc} {k} (h : f m = some m') :
    Steps P (.run (.op f :: k) m) (.run k m') := .one (by simp [step, h])

theorem st_fail {f : M σ Val Exc → Option (M σ Val Exc)} {m : M σ Val Exc} {k} (h : f m = none) :
    Steps P (.run (.op f :: k) m) .failed := .one (by simp [step, h])

theorem st_goto {l : Label} {m : M σ Val Exc} {k c} (h : find l P = some c) :
    Steps P (.run (.goto l :: k) m) (.run c m) := .one (by simp [step, h])

theorem st_label {l : Label} {m : M σ Val Exc} {k} : Steps P (.run (.label l :: k) m) (.run k m) := .one rfl

theorem st_take {c u l} {m : M σ Val Exc} {k k'} (hc : c m = true) (h : find l P = some k') :
    Steps P (.run (.jump c u l :: k) m) (.run k' (u m)) := .one (by simp [step, h, hc])

theorem st_skip {c u l} {m : M σ Val Exc} {k} (hc : c m = false) :
    Steps P (.run (.jump c u l :: k) m) (.run k m) := .one (by simp [step, hc])

theorem st_tested_skip (cond : M σ Val Exc → Ty → Bool) (m : M σ Val Exc) (K) : ∀ ts : List (Nat × Nat × Ty),
    (∀ h ∈ ts, cond m h.2.2 = false) →
    Steps P (.run ((ts.map fun h => .jump (fun m => cond m h.2.2) id (.handler h.1 h.2.1)) ++ K) m) (.run K m) := by
  intro ts
  induction ts with
  | nil => intro _; exact .refl _
  | cons t ts ih =>
    intro h
    exact (st_skip (h t (by simp))).trans (ih (fun h' hh => h h' (by simp [hh])))

theorem st_tested_take (cond : M σ Val Exc → Ty → Bool) (m : M σ Val Exc) (K) (i k ty c) :
    ∀ ts : List (Nat × Nat × Ty), ts.find? (fun h => cond m h.2.2) = some (i, k, ty) → find (.handler i k) P = some c →
    Steps P (.run ((ts.map fun h => .jump (fun m => cond m h.2.2) id (.handler h.1 h.2.1)) ++ K) m) (.run c m) := by
  intro ts
  induction ts with
  | nil => intro h; cases h
  | cons t ts ih =>
    intro h hc
    rw [List.find?_cons] at h
    cases ht : cond m t.2.2 with
    | true =>
      rw [ht] at h
      cases h
      exact st_take ht hc
    | false =>
      rw [ht] at h
      exact (st_skip ht).trans (ih h hc)

/-! ### Jumps -/

/-- Effect of a jump to `d` for outcome `o`. -/
structure Jumped (d : Dest) (o : Outcome Val Exc) (m m' : M σ Val Exc) : Prop where
  user : m'.user = m.user
  res : m'.res = m.res
  errs : ∀ j, m'.err (some j) = m.err (some j)
  merr : m'.err none = if d = .endD then o.exitArg else none
  fin : ∀ i c, d = .fin i c → m'.fin i = c
  fins : ∀ j, (∀ c, d ≠ .fin j c) → m'.fin j = m.fin j

theorem jumped_id {d : Dest} {o : Outcome Val Exc} {m : M σ Val Exc} (hd : ∀ i c, d ≠ .fin i c)
    (hm : m.err none = if d = .endD then o.exitArg else none) : Jumped d o m m :=
  ⟨rfl, rfl, fun _ => rfl, hm, fun i c h => absurd h (hd i c), fun _ _ => rfl⟩

theorem jumped_fin {i c : Nat} {o : Outcome Val Exc} {m : M σ Val Exc} (hm : m.err none = none) :
    Jumped (.fin i c) o m (m.setFin i c) := by
  refine ⟨rfl, rfl, fun _ => rfl, by simpa [M.setFin] using hm, ?_, ?_⟩
  · intro i' c' h
    cases h
    simp [M.setFin]
  · intro j h
    have : j ≠ i := fun h' => h c (by rw [h'])
    simp [M.setFin, this]

theorem errorVar_cases (fs : List (Frame Ty)) : ∀ i, errorVar fs = some i → i ∈ fs.map Frame.id := by
  induction fs with
  | nil => intro i h; cases h
  | cons f fs ih =>
    intro i h
    cases f with
    | body j f hs => simp [errorVar, surrounding] at h; simp [Frame.id, h]
    | withB j => simp [errorVar, surrounding] at h; simp [Frame.id, h]
    | _ => have := ih i h; simp at this; simp [this]

section
variable (isinst : Exc → Ty → Bool)

/-- A raised exception goes to the right place. -/
theorem catchers_run (fs : List (Frame Ty)) (e : Exc) (m : M σ Val Exc) (K k : List (Instr σ Val Exc)) (hE : Env P fs)
    (h : raiseOk fs = true) (he : m.err (errorVar fs) = some e) (hm : errorVar fs ≠ none → m.err none = none) :
    ∃ c m', Steps P (.run (catchers isinst fs ++ K) m) (.run c m') ∧ At P k (destExc isinst e fs) c ∧
      Jumped (destExc isinst e fs) (.exc e : Outcome Val Exc) m m' ∧
      (∀ i c, destExc isinst e fs = .fin i c → m.err (some i) = some e) ∧
      (∀ i k, destExc isinst e fs = .handler i k true → m.err (some i) = some e) := by
  have hc : ∀ ty : Ty, ((m.err (errorVar fs)).isSome && hasType isinst (m.err (errorVar fs)) ty) = isinst e ty := by
    intro ty; simp [he, hasType]
  have hne : destExc isinst e fs ≠ .endD → errorVar fs ≠ none := by
    intro hd hn
    apply hd
    clear h he hm hd hc hE
    induction fs with
    | nil => rfl
    | cons f fs ih => cases f <;> first | (simp [errorVar, surrounding] at hn; done) | exact ih hn
  obtain ⟨c, hat⟩ := dest_exists (Val := Val) isinst (.exc e) fs hE k
  simp only [dest] at hat
  rcases raise_exc isinst e fs h with ⟨i, k', b, ty, h1, h2, h3⟩ | ⟨b, h1, h2, h3, h4⟩ | ⟨h1, h2, h3⟩
  · rw [h1] at hat
    refine ⟨c, m, ?_, by rw [h1]; exact hat, ?_, ?_, ?_⟩
    · unfold catchers
      simp only [List.append_assoc]
      refine st_tested_take (fun m ty => (m.err (errorVar fs)).isSome && hasType isinst (m.err (errorVar fs)) ty) m _ i k' ty c _ ?_ hat
      rw [← h3]
      simp only [hc]
    · rw [h1]
      exact jumped_id (fun _ _ h => by cases h) (by simpa using hm (hne (by rw [h1]; exact fun h => by cases h)))
    · intro i' c' h; rw [h1] at h; cases h
    · intro i' k'' h; rw [h1] at h; cases h
      rw [← h2 rfl]; exact he
  · rw [h1] at hat
    refine ⟨c, m.setFin b.i 2, ?_, by rw [h1]; exact hat, ?_, ?_, ?_⟩
    · unfold catchers
      simp only [List.append_assoc]
      refine (st_tested_skip (fun m ty => (m.err (errorVar fs)).isSome && hasType isinst (m.err (errorVar fs)) ty) m _ _ ?_).trans ?_
      · intro h hh
        simp only [hc]
        have := List.find?_eq_none.1 h4 h hh
        simpa using this
      · rw [h3]
        exact st_take (by simp [he]) hat
    · rw [h1]
      exact jumped_fin (hm (by rw [h2]; simp))
    · intro i' c' h; rw [h1] at h; cases h
      rw [← h2]; exact he
    · intro i' k'' h; rw [h1] at h; cases h
  · rw [h1] at hat
    refine ⟨c, m.copyErr (errorVar fs), ?_, by rw [h1]; exact hat, ?_, ?_, ?_⟩
    · unfold catchers
      simp only [List.append_assoc]
      refine (st_tested_skip (fun m ty => (m.err (errorVar fs)).isSome && hasType isinst (m.err (errorVar fs)) ty) m _ _ ?_).trans ?_
      · intro h hh
        simp only [hc]
        have := List.find?_eq_none.1 h3 h hh
        simpa using this
      · rw [h2]
        exact st_take (by simp [he]) hat
    · rw [h1]
      refine ⟨rfl, rfl, fun j => by simp [M.copyErr, M.setErr], ?_, fun _ _ h => (by cases h), fun _ _ => rfl⟩
      simp [M.copyErr, M.setErr, he, Outcome.exitArg]
    · intro i' c' h; rw [h1] at h; cases h
    · intro i' k'' h; rw [h1] at h; cases h

theorem loopDispatch_skip (i c l) (fs : List (Frame Ty)) (m : M σ Val Exc) (K) (h : m.fin i ≠ c) :
    Steps P (.run (loopDispatch i c l fs ++ K) m) (.run K m) := by
  unfold loopDispatch
  cases parentLoop fs with
  | none => exact .refl _
  | some j =>
    simp only
    cases firstTryFinally ((surrounding fs).filter fun b => b.loop == some j) <;> exact st_skip (by simpa using h)

/-- The code behind clean-up code goes to the right place. -/
theorem dispatch_run (i : Nat) (fs : List (Frame Ty)) (o : Outcome Val Exc) (m : M σ Val Exc)
    (K k c0 : List (Instr σ Val Exc)) (hE : Env P fs) (ho : o ≠ .fail) (h : after fs o = true)
    (hn : (fs.map Frame.id).Nodup) (hf : m.fin i = codeOf o) (he : ∀ e, o = .exc e → m.err (some i) = some e)
    (hm : m.err none = none) (hp : find (.post i) P = some c0) :
    ∃ c m', Steps P (.run (dispatch isinst i fs ++ K) m) (.run c m') ∧ At P c0 (dest isinst fs o) c ∧
      Jumped (dest isinst fs o) o m m' ∧
      (∀ e, o = .exc e → (∀ i c, dest isinst fs o ≠ .fin i c) ∧ (∀ i k, dest isinst fs o ≠ .handler i k true)) := by
  obtain ⟨c, hat⟩ := dest_exists isinst o fs hE c0
  have skipT : ∀ K, m.fin i ≠ 2 → Steps P (.run (((tested (surrounding fs)).map fun h =>
      .jump (fun m => m.fin i == 2 && hasType isinst (m.err (some i)) h.2.2) id (.handler h.1 h.2.1)) ++ K) m) (.run K m) := by
    intro K hne
    refine st_tested_skip (fun m ty => m.fin i == 2 && hasType isinst (m.err (some i)) ty) m _ _ ?_
    intro h hh
    simp [hne]
  unfold dispatch
  simp only [List.append_assoc]
  cases o with
  | fail => exact absurd rfl ho
  | normal =>
    have hf : m.fin i = 0 := hf
    refine ⟨c0, m, ?_, rfl, jumped_id (fun _ _ h => by cases h) (by simpa [dest] using hm), fun e h => by cases h⟩
    refine (loopDispatch_skip i 4 _ fs m _ (by omega)).trans ((loopDispatch_skip i 3 _ fs m _ (by omega)).trans
      ((skipT _ (by omega)).trans ?_))
    have a : ∀ (c : Nat) (K' : List (Instr σ Val Exc)) (u l), 0 ≠ c → Steps P (.run (.jump (fun m => m.fin i == c) u l :: K') m) (.run K' m) := by
      intro c K' u l hc
      exact st_skip (by simp [hf, hc])
    cases firstTryFinally (surrounding fs) <;>
      exact (a 2 _ _ _ (by simp)).trans ((a 1 _ _ _ (by simp)).trans (st_goto hp))
  | ret v =>
    have hf : m.fin i = 1 := hf
    have hr := firstTryFinally_ret fs h
    simp only [dest] at hat ⊢
    have pre : ∀ K', Steps P (.run (loopDispatch i 4 .loopEnd fs ++ (loopDispatch i 3 .loopPost fs ++
        (((tested (surrounding fs)).map fun h =>
          .jump (fun m => m.fin i == 2 && hasType isinst (m.err (some i)) h.2.2) id (.handler h.1 h.2.1)) ++ K'))) m) (.run K' m) := fun K' =>
      (loopDispatch_skip i 4 _ fs m _ (by omega)).trans ((loopDispatch_skip i 3 _ fs m _ (by omega)).trans
      (skipT _ (by omega)))
    cases hb : firstTryFinally (surrounding fs) with
    | some b =>
      rw [hb] at hr
      simp only at hr
      rw [hr] at hat ⊢
      refine ⟨c, m.setFin b.i 1, (pre _).trans ?_, hat, jumped_fin hm, fun e h => by cases h⟩
      have h1 : (fun m : M σ Val Exc => M.copyFin i b.i m) m = m.setFin b.i 1 := by simp [M.copyFin, hf]
      refine (st_skip (by simp [hf])).trans ?_
      rw [← h1]
      exact st_take (by simp [hf]) hat
    | none =>
      rw [hb] at hr
      simp only at hr
      rw [hr] at hat ⊢
      refine ⟨c, m, (pre _).trans ?_, hat, jumped_id (fun _ _ h => by cases h) (by simpa [Outcome.exitArg] using hm), fun e h => by cases h⟩
      exact (st_skip (by simp [hf])).trans (st_take (u := id) (by simp [hf]) hat)
  | exc e =>
    have hf : m.fin i = 2 := hf
    have he := he e rfl
    obtain ⟨_, ho2, ho3⟩ := outer_exc isinst e fs h
    simp only [dest] at hat ⊢
    have hc : ∀ ty : Ty, (m.fin i == 2 && hasType isinst (m.err (some i)) ty) = isinst e ty := by
      intro ty; simp [he, hasType, hf]
    rw [ho2]
    rcases ho3 with ⟨i', k', ty, h1, h2⟩ | ⟨h1, h2⟩
    · rw [h1] at hat ⊢
      refine ⟨c, m, ?_, hat, jumped_id (fun _ _ h => by cases h) (by simpa using hm), fun e h => ⟨fun _ _ h => (by cases h), fun _ _ h => (by cases h)⟩⟩
      refine (loopDispatch_skip i 4 _ fs m _ (by omega)).trans ((loopDispatch_skip i 3 _ fs m _ (by omega)).trans ?_)
      refine st_tested_take (fun m ty => m.fin i == 2 && hasType isinst (m.err (some i)) ty) m _ i' k' ty c _ ?_ hat
      rw [← h2]
      simp only [hc]
    · rw [h1] at hat ⊢
      refine ⟨c, m.copyErr (some i), ?_, hat, ?_, fun e h => ⟨fun _ _ h => (by cases h), fun _ _ h => (by cases h)⟩⟩
      · refine (loopDispatch_skip i 4 _ fs m _ (by omega)).trans ((loopDispatch_skip i 3 _ fs m _ (by omega)).trans ?_)
        refine (st_tested_skip (fun m ty => m.fin i == 2 && hasType isinst (m.err (some i)) ty) m _ _ ?_).trans ?_
        · intro h hh
          simp only [hc]
          have := List.find?_eq_none.1 h2 h hh
          simpa using this
        · exact st_take (by simp [hf]) hat
      · refine ⟨rfl, rfl, fun j => by simp [M.copyErr, M.setErr], ?_, fun _ _ h => (by cases h), fun _ _ => rfl⟩
        simp [M.copyErr, M.setErr, he, Outcome.exitArg]
  | brk =>
    have hf : m.fin i = 3 := hf
    obtain ⟨j, hj, hd⟩ := loopDispatch_dest 3 .loopPost fs h hn
    simp only [dest] at hat ⊢
    cases hb : firstTryFinally ((surrounding fs).filter fun b => b.loop == some j) with
    | some b =>
      rw [hb] at hd
      simp only at hd
      rw [hd] at hat ⊢
      refine ⟨c, m.setFin b.i 3, (loopDispatch_skip i 4 .loopEnd fs m _ (by omega)).trans ?_, hat, jumped_fin hm, fun e h => by cases h⟩
      have h1 : (fun m : M σ Val Exc => M.copyFin i b.i m) m = m.setFin b.i 3 := by simp [M.copyFin, hf]
      rw [← h1]
      unfold loopDispatch
      simp only [hj, hb]
      exact st_take (by simp [hf]) hat
    | none =>
      rw [hb] at hd
      simp only at hd
      rw [hd] at hat ⊢
      refine ⟨c, m, (loopDispatch_skip i 4 .loopEnd fs m _ (by omega)).trans ?_, hat, jumped_id (fun _ _ h => by cases h) (by simpa using hm), fun e h => by cases h⟩
      unfold loopDispatch
      simp only [hj, hb]
      exact st_take (u := id) (by simp [hf]) hat
  | cont =>
    have hf : m.fin i = 4 := hf
    obtain ⟨j, hj, hd⟩ := loopDispatch_dest 4 .loopEnd fs h hn
    simp only [dest] at hat ⊢
    unfold loopDispatch
    simp only [hj]
    cases hb : firstTryFinally ((surrounding fs).filter fun b => b.loop == some j) with
    | some b =>
      rw [hb] at hd
      simp only at hd
      rw [hd] at hat ⊢
      refine ⟨c, m.setFin b.i 4, ?_, hat, jumped_fin hm, fun e h => by cases h⟩
      have h1 : (fun m : M σ Val Exc => M.copyFin i b.i m) m = m.setFin b.i 4 := by simp [M.copyFin, hf]
      rw [← h1]
      exact st_take (by simp [hf]) hat
    | none =>
      rw [hb] at hd
      simp only at hd
      rw [hd] at hat ⊢
      refine ⟨c, m, ?_, hat, jumped_id (fun _ _ h => by cases h) (by simpa using hm), fun e h => by cases h⟩
      exact st_take (u := id) (by simp [hf]) hat

end

end Nagini.Cfg
