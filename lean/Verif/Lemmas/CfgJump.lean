import Verif.Lemmas.CfgBase

/-! Where the generated jumps lead. -/
namespace Nagini.Cfg

set_option linter.unusedVariables false
set_option linter.unusedSimpArgs false

variable {σ Val Exc Ty : Type} {P : List (Instr σ Val Exc)}

/-- Where control goes when a statement ends. -/
inductive Dest where
  | next
  | endD
  | handler (i k : Nat) (b : Bool)
  | fin (i c : Nat)
  | loopEnd (i : Nat)
  | loopPost (i : Nat)
  deriving DecidableEq

def destRet : List (Frame Ty) → Dest
  | [] => .endD
  | .body i f _ :: fs => if f then .fin i 1 else destRet fs
  | .withB i :: _ => .fin i 1
  | _ :: fs => destRet fs

def destLoop (c : Nat) (l : Nat → Dest) : List (Frame Ty) → Dest
  | [] => .endD
  | .loop i :: _ => l i
  | .body i f _ :: fs => if f then .fin i c else destLoop c l fs
  | _ :: fs => destLoop c l fs

/-- First matching except clause, counted from k, and whether it has a name. -/
def firstH (isinst : Exc → Ty → Bool) (e : Exc) (k : Nat) : List (Ty × Bool) → Option (Nat × Bool)
  | [] => none
  | h :: hs => if isinst e h.1 then some (k, h.2) else firstH isinst e (k + 1) hs

def destExc (isinst : Exc → Ty → Bool) (e : Exc) : List (Frame Ty) → Dest
  | [] => .endD
  | .body i f hs :: fs =>
    match firstH isinst e 0 hs with
    | some (k, b) => .handler i k b
    | none => if f then .fin i 2 else destExc isinst e fs
  | .withB i :: _ => .fin i 2
  | _ :: fs => destExc isinst e fs

def dest (isinst : Exc → Ty → Bool) (fs : List (Frame Ty)) : Outcome Val Exc → Dest
  | .normal => .next
  | .ret _ => destRet fs
  | .brk => destLoop 3 .loopPost fs
  | .cont => destLoop 4 .loopEnd fs
  | .exc e => destExc isinst e fs
  | .fail => .next

def guardO (fs : List (Frame Ty)) : Outcome Val Exc → Bool
  | .normal => true
  | .ret _ => retOk fs
  | .brk => preOk fs
  | .cont => preOk fs
  | .exc _ => raiseOk fs
  | .fail => true

/-- Condition on the position of a block with clean-up code. -/
def after (fs : List (Frame Ty)) : Outcome Val Exc → Bool
  | .normal => true
  | .ret _ => fs.all Frame.chainOk
  | .brk => preOk fs
  | .cont => preOk fs
  | .exc _ => fs.all Frame.outerOk
  | .fail => true

def codeOf : Outcome Val Exc → Nat
  | .normal => 0
  | .ret _ => 1
  | .brk => 3
  | .cont => 4
  | .exc _ => 2
  | .fail => 0

/-- The labels of a frame to which statements inside may jump exist. -/
def LabOk (P : List (Instr σ Val Exc)) : Frame Ty → Prop
  | .loop i => (find (.loopEnd i) P).isSome ∧ (find (.loopPost i) P).isSome
  | .body i f hs => (∀ k, k < hs.length → (find (.handler i k) P).isSome) ∧ (f = true → (find (.finL i) P).isSome)
  | .withB i => (find (.finL i) P).isSome
  | _ => True

structure Env (P : List (Instr σ Val Exc)) (fs : List (Frame Ty)) : Prop where
  endL : (find .endL P).isSome
  labs : ∀ f ∈ fs, LabOk P f

def Dest.lab : Dest → Option Label
  | .next => none
  | .endD => some .endL
  | .handler i k _ => some (.handler i k)
  | .fin i _ => some (.finL i)
  | .loopEnd i => some (.loopEnd i)
  | .loopPost i => some (.loopPost i)

/-- The rest of the program at a destination. -/
def At (P k : List (Instr σ Val Exc)) (d : Dest) (c : List (Instr σ Val Exc)) : Prop :=
  match d.lab with
  | none => c = k
  | some l => find l P = some c

theorem Env.tail {f : Frame Ty} {fs} (h : Env P (f :: fs)) : Env P fs :=
  ⟨h.endL, fun g hg => h.labs g (by simp [hg])⟩

theorem firstH_lt (isinst : Exc → Ty → Bool) (e : Exc) : ∀ (hs : List (Ty × Bool)) k j b, firstH isinst e k hs = some (j, b) →
    j < k + hs.length := by
  intro hs
  induction hs with
  | nil => intro k j b h; cases h
  | cons x hs ih =>
    intro k j b h
    simp only [firstH] at h
    split at h
    · cases h; simp
    · have := ih _ _ _ h; simp; omega

/-- All destinations that a position gives rise to exist. -/
theorem dest_exists (isinst : Exc → Ty → Bool) (o : Outcome Val Exc) : ∀ (fs : List (Frame Ty)), Env P fs → ∀ k : List (Instr σ Val Exc),
    ∃ c, At P k (dest isinst fs o) c := by
  have some : ∀ {l : Label} {d : Dest} (k : List (Instr σ Val Exc)), d.lab = some l → (find l P).isSome → ∃ c, At P k d c := by
    intro l d k h1 h2
    simp only [At, h1]
    exact Option.isSome_iff_exists.1 h2
  intro fs hE k
  cases o with
  | normal => exact ⟨k, rfl⟩
  | fail => exact ⟨k, rfl⟩
  | ret v =>
    simp only [dest]
    induction fs with
    | nil => exact some k rfl hE.endL
    | cons f fs ih =>
      have ih := ih hE.tail
      cases f with
      | body i f hs =>
        simp only [destRet]
        split
        · rename_i hf; exact some k rfl ((hE.labs (.body i f hs) (by simp)).2 hf)
        · exact ih
      | withB i => exact some k rfl (hE.labs (.withB i) (by simp))
      | _ => exact ih
  | brk =>
    simp only [dest]
    induction fs with
    | nil => exact some k rfl hE.endL
    | cons f fs ih =>
      have ih := ih hE.tail
      cases f with
      | body i f hs =>
        simp only [destLoop]
        split
        · rename_i hf; exact some k rfl ((hE.labs (.body i f hs) (by simp)).2 hf)
        · exact ih
      | loop i => exact some k rfl (hE.labs (.loop i) (by simp)).2
      | _ => exact ih
  | cont =>
    simp only [dest]
    induction fs with
    | nil => exact some k rfl hE.endL
    | cons f fs ih =>
      have ih := ih hE.tail
      cases f with
      | body i f hs =>
        simp only [destLoop]
        split
        · rename_i hf; exact some k rfl ((hE.labs (.body i f hs) (by simp)).2 hf)
        · exact ih
      | loop i => exact some k rfl (hE.labs (.loop i) (by simp)).1
      | _ => exact ih
  | exc e =>
    simp only [dest]
    induction fs with
    | nil => exact some k rfl hE.endL
    | cons f fs ih =>
      have ih := ih hE.tail
      cases f with
      | body i f hs =>
        simp only [destExc]
        split
        · rename_i k' b h
          exact some k rfl ((hE.labs (.body i f hs) (by simp)).1 k' (by simpa using firstH_lt isinst e _ _ _ _ h))
        · split
          · rename_i hf; exact some k rfl ((hE.labs (.body i f hs) (by simp)).2 hf)
          · exact ih
      | withB i => exact some k rfl (hE.labs (.withB i) (by simp))
      | _ => exact ih

/-! ### Conditions on positions -/

theorem raiseOk_of_outer (fs : List (Frame Ty)) (h : fs.all Frame.outerOk = true) : raiseOk fs = true := by
  induction fs with
  | nil => rfl
  | cons f fs ih =>
    simp only [List.all_cons, Bool.and_eq_true] at h
    cases f <;> simp_all [raiseOk, Frame.outerOk]

theorem outer_of_inert (fs : List (Frame Ty)) (h : fs.all Frame.inert = true) : fs.all Frame.outerOk = true := by
  rw [List.all_eq_true] at h ⊢
  intro f hf
  have := h f hf
  cases f <;> simp_all [Frame.inert, Frame.outerOk]

theorem retOk_of_chain (fs : List (Frame Ty)) (h : fs.all Frame.chainOk = true) : retOk fs = true := by
  induction fs with
  | nil => rfl
  | cons f fs ih =>
    simp only [List.all_cons, Bool.and_eq_true] at h
    cases f <;> simp_all [retOk, Frame.chainOk]

theorem after_guard (fs : List (Frame Ty)) (o : Outcome Val Exc) (h : after fs o = true) : guardO fs o = true := by
  cases o <;> simp_all [after, guardO, raiseOk_of_outer, retOk_of_chain]

/-! ### Surrounding blocks -/

theorem firstFinally_ret (fs : List (Frame Ty)) :
    match firstFinally (surrounding fs) with
    | some b => destRet fs = .fin b.i 1
    | none => destRet fs = .endD := by
  induction fs with
  | nil => rfl
  | cons f fs ih =>
    cases f with
    | body i f hs =>
      cases f
      · simpa [firstFinally, surrounding, destRet] using ih
      · simp [firstFinally, surrounding, destRet]
    | withB i => simp [firstFinally, surrounding, destRet]
    | _ => simpa [firstFinally, surrounding, destRet] using ih

theorem firstTryFinally_ret (fs : List (Frame Ty)) (h : fs.all Frame.chainOk = true) :
    match firstTryFinally (surrounding fs) with
    | some b => destRet fs = .fin b.i 1
    | none => destRet fs = .endD := by
  induction fs with
  | nil => rfl
  | cons f fs ih =>
    simp only [List.all_cons, Bool.and_eq_true] at h
    have ih := ih h.2
    cases f with
    | body i f hs =>
      cases f
      · simpa [firstTryFinally, surrounding, destRet] using ih
      · simp [firstTryFinally, surrounding, destRet]
    | withB i => simp [Frame.chainOk] at h
    | _ => simpa [firstTryFinally, surrounding, destRet] using ih

theorem firstFinally_none (fs : List (Frame Ty)) (h : fs.all Frame.noCleanup = true) : firstFinally (surrounding fs) = none := by
  induction fs with
  | nil => rfl
  | cons f fs ih =>
    simp only [List.all_cons, Bool.and_eq_true] at h
    have ih := ih h.2
    cases f with
    | body i f hs => cases f <;> simp_all [firstFinally, surrounding, Frame.noCleanup]
    | withB i => simp [Frame.noCleanup] at h
    | _ => simpa [firstFinally, surrounding] using ih

theorem preOk_loop (fs : List (Frame Ty)) (h : preOk fs = true) : ∃ j, parentLoop fs = some j := by
  induction fs with
  | nil => simp [preOk] at h
  | cons f fs ih =>
    cases f <;> simp_all [preOk, parentLoop]

/-- Break and continue jump to the right place. -/
theorem loopJump_dest (c : Nat) (l : Nat → Label) (D : Nat → Dest) (fs : List (Frame Ty)) (h : loopOk fs = true) :
    (∃ i, destLoop c D fs = .fin i c ∧ (loopJump c l fs : List (Instr σ Val Exc)) = [.op fun m => some (m.setFin i c), .goto (.finL i)]) ∨
    (∃ j, destLoop c D fs = D j ∧ (loopJump c l fs : List (Instr σ Val Exc)) = [.goto (l j)]) := by
  simp only [loopOk, Bool.and_eq_true, Bool.or_eq_true] at h
  obtain ⟨h1, h2⟩ := h
  obtain ⟨j, hj⟩ := preOk_loop fs h1
  simp only [loopJump, hj]
  have key : (cleanupInLoop fs = true → ∃ i, destLoop c D fs = .fin i c ∧ ∃ b, firstFinally (surrounding fs) = some b ∧ b.i = i) ∧
      (cleanupInLoop fs = false → destLoop c D fs = D j) := by
    clear h2
    induction fs with
    | nil => simp [preOk] at h1
    | cons f fs ih =>
      cases f with
      | loop i =>
        simp only [parentLoop, Option.some.injEq] at hj
        subst hj
        simp [cleanupInLoop, destLoop]
      | loopElse i => simp [preOk] at h1
      | withB i => simp [preOk] at h1
      | body i f hs =>
        cases f
        · have := ih h1 hj
          simpa [cleanupInLoop, destLoop, firstFinally, surrounding] using this
        · simp [cleanupInLoop, destLoop, firstFinally, surrounding]
      | other i f =>
        simp only [preOk, Bool.and_eq_true] at h1
        exact ih h1.2 hj
      | final i => exact ih h1 hj
  cases hc : cleanupInLoop fs with
  | true =>
    obtain ⟨i, h3, b, h4, rfl⟩ := key.1 hc
    exact .inl ⟨b.i, h3, by rw [h4]⟩
  | false =>
    rw [hc] at h2
    have h2 : fs.all Frame.noCleanup = true := by simpa using h2
    exact .inr ⟨j, key.2 hc, by rw [firstFinally_none fs h2]⟩

/-- The dispatch behind a finally suite leads break and continue to the right place. -/
theorem loopDispatch_dest (c : Nat) (D : Nat → Dest) (fs : List (Frame Ty)) (h : preOk fs = true)
    (hn : (fs.map Frame.id).Nodup) : ∃ j, parentLoop fs = some j ∧
    match firstTryFinally ((surrounding fs).filter fun b => b.loop == some j) with
    | some b => destLoop c D fs = .fin b.i c
    | none => destLoop c D fs = D j := by
  obtain ⟨j, hj⟩ := preOk_loop fs h
  refine ⟨j, hj, ?_⟩
  induction fs with
  | nil => simp [preOk] at h
  | cons f fs ih =>
    have hn' : (fs.map Frame.id).Nodup := by simp at hn ⊢; exact hn.2
    cases f with
    | loop i =>
      simp only [parentLoop, Option.some.injEq] at hj
      subst hj
      have : ∀ b ∈ surrounding fs, b.loop ≠ some i := by
        have hi : i ∉ fs.map Frame.id := by simp [Frame.id] at hn ⊢; exact hn.1
        clear ih hn hn' h
        have hp : ∀ (gs : List (Frame Ty)), i ∉ gs.map Frame.id → parentLoop gs ≠ some i := by
          intro gs
          induction gs with
          | nil => simp [parentLoop]
          | cons g gs ih =>
            intro hi
            simp only [List.map_cons, List.mem_cons, not_or] at hi
            cases g <;> simp_all [parentLoop, Frame.id] <;> omega
        induction fs with
        | nil => simp [surrounding]
        | cons g gs ih =>
          simp only [List.map_cons, List.mem_cons, not_or] at hi
          have ih := ih hi.2
          cases g <;> simp_all [surrounding]
      have : (surrounding fs).filter (fun b => b.loop == some i) = [] := by
        rw [List.filter_eq_nil_iff]
        intro b hb
        simpa using this b hb
      simp [surrounding, this, firstTryFinally, destLoop]
    | loopElse i => simp [preOk] at h
    | withB i => simp [preOk] at h
    | body i f hs =>
      have hj' : parentLoop fs = some j := hj
      have ih := ih h hn' hj
      cases f
      · simpa [surrounding, hj', firstTryFinally, destLoop] using ih
      · simp [surrounding, hj', firstTryFinally, destLoop]
    | other i f =>
      simp only [preOk, Bool.and_eq_true] at h
      exact ih h.2 hn' hj
    | final i => exact ih h hn' hj

/-! ### Exceptions -/

theorem zip_first (isinst : Exc → Ty → Bool) (e : Exc) (i : Nat) : ∀ (hs : List (Ty × Bool)) (k : Nat),
    match firstH isinst e k hs with
    | some (j, b) => ∃ ty, ((hs.zipIdx k).map fun h => (i, h.2, h.1.1)).find? (fun h => isinst e h.2.2) = some (i, j, ty)
    | none => ((hs.zipIdx k).map fun h => (i, h.2, h.1.1)).find? (fun h => isinst e h.2.2) = none := by
  intro hs
  induction hs with
  | nil => intro k; rfl
  | cons x hs ih =>
    intro k
    have ih := ih (k + 1)
    simp only [firstH, List.zipIdx_cons, List.map_cons, List.find?_cons]
    cases h : isinst e x.1 with
    | true => simp
    | false => simpa [h] using ih

theorem firstH_name (isinst : Exc → Ty → Bool) (e : Exc) : ∀ (hs : List (Ty × Bool)) k j b, hs.all (!·.2) = true →
    firstH isinst e k hs = some (j, b) → b = false := by
  intro hs
  induction hs with
  | nil => intro k j b _ h; cases h
  | cons x hs ih =>
    intro k j b h' h
    simp only [List.all_cons, Bool.and_eq_true] at h'
    simp only [firstH] at h
    split at h
    · cases h; simpa using h'.1
    · exact ih _ _ _ h'.2 h

/-- Positions without clean-up code and without named except clauses. -/
theorem outer_exc (isinst : Exc → Ty → Bool) (e : Exc) (fs : List (Frame Ty)) (h : fs.all Frame.outerOk = true) :
    firstFinally (surrounding fs) = none ∧ firstTryFinally (surrounding fs) = none ∧
    ((∃ i k ty, destExc isinst e fs = .handler i k false ∧
        (tested (surrounding fs)).find? (fun h => isinst e h.2.2) = some (i, k, ty)) ∨
     (destExc isinst e fs = .endD ∧ (tested (surrounding fs)).find? (fun h => isinst e h.2.2) = none)) := by
  induction fs with
  | nil => exact ⟨rfl, rfl, .inr ⟨rfl, rfl⟩⟩
  | cons f fs ih =>
    simp only [List.all_cons, Bool.and_eq_true] at h
    obtain ⟨i1, i2, i3⟩ := ih h.2
    cases f with
    | body i f hs =>
      simp only [Frame.outerOk, Bool.and_eq_true] at h
      have hf : f = false := by simpa using h.1.1
      subst hf
      refine ⟨by simpa [firstFinally, surrounding] using i1, by simpa [firstTryFinally, surrounding] using i2, ?_⟩
      have hz := zip_first isinst e i hs 0
      cases hh : firstH isinst e 0 hs with
      | some p =>
        obtain ⟨k, b⟩ := p
        rw [hh] at hz
        obtain ⟨ty, hz⟩ := hz
        have := firstH_name isinst e hs _ _ _ h.1.2 hh
        subst this
        refine .inl ⟨i, k, ty, by simp [destExc, hh], ?_⟩
        simp only [surrounding, tested, List.find?_append, hz]
        rfl
      | none =>
        rw [hh] at hz
        simp only [surrounding, tested, List.find?_append, hz, destExc, hh]
        simpa using i3
    | withB i => simp [Frame.outerOk] at h
    | _ => exact ⟨i1, i2, i3⟩

/-- Positions at which exceptions may be raised. -/
theorem raise_exc (isinst : Exc → Ty → Bool) (e : Exc) (fs : List (Frame Ty)) (h : raiseOk fs = true) :
    (∃ i k b ty, destExc isinst e fs = .handler i k b ∧ (b = true → errorVar fs = some i) ∧
        (tested (surrounding fs)).find? (fun h => isinst e h.2.2) = some (i, k, ty)) ∨
    (∃ b, destExc isinst e fs = .fin b.i 2 ∧ errorVar fs = some b.i ∧ firstFinally (surrounding fs) = some b ∧
        (tested (surrounding fs)).find? (fun h => isinst e h.2.2) = none) ∨
    (destExc isinst e fs = .endD ∧ firstFinally (surrounding fs) = none ∧
        (tested (surrounding fs)).find? (fun h => isinst e h.2.2) = none) := by
  induction fs with
  | nil => exact .inr (.inr ⟨rfl, rfl, rfl⟩)
  | cons f fs ih =>
    cases f with
    | body i f hs =>
      have ho := outer_exc isinst e fs h
      have hz := zip_first isinst e i hs 0
      cases hh : firstH isinst e 0 hs with
      | some p =>
        obtain ⟨k, b⟩ := p
        rw [hh] at hz
        obtain ⟨ty, hz⟩ := hz
        refine .inl ⟨i, k, b, ty, by simp [destExc, hh], fun _ => rfl, ?_⟩
        simp only [surrounding, tested, List.find?_append, hz]
        rfl
      | none =>
        rw [hh] at hz
        cases f with
        | true =>
          refine .inr (.inl ⟨⟨i, true, false, hs, parentLoop fs⟩, by simp [destExc, hh], rfl, by simp [firstFinally, surrounding], ?_⟩)
          simp only [surrounding, tested, List.find?_append, hz]
          rfl
        | false =>
          rcases ho with ⟨o1, _, ⟨i', k, ty, o2, o3⟩ | ⟨o2, o3⟩⟩
          · refine .inl ⟨i', k, false, ty, by simpa [destExc, hh] using o2, by simp, ?_⟩
            simp only [surrounding, tested, List.find?_append, hz]
            simpa using o3
          · refine .inr (.inr ⟨by simpa [destExc, hh] using o2, by simpa [firstFinally, surrounding] using o1, ?_⟩)
            simp only [surrounding, tested, List.find?_append, hz]
            simpa using o3
    | withB i =>
      refine .inr (.inl ⟨⟨i, false, true, [], parentLoop fs⟩, rfl, rfl, by simp [firstFinally, surrounding], ?_⟩)
      have : surrounding fs = [] := by
        simp only [raiseOk] at h
        clear ih
        induction fs with
        | nil => rfl
        | cons g gs ih =>
          simp only [List.all_cons, Bool.and_eq_true] at h
          cases g <;> simp_all [surrounding, Frame.inert]
      simp [surrounding, tested, this]
    | other i f =>
      simp only [raiseOk, Bool.and_eq_true] at h
      exact ih h.2
    | _ => exact ih h

end Nagini.Cfg
