import Verif.Spec.Pure
import Mathlib.Logic.Basic

set_option linter.unusedVariables false
set_option linter.unusedSimpArgs false

namespace Nagini.Pure

/-! ### Stage 1: from lets to environments -/

mutual
def evalE (I : Interp) (U : List Val) (look : List Nat → Nat → Option Val) (D : List Nat) :
    Expr → Option (Val × List Nat)
  | .lit v => some (v, D)
  | .var x => (look D x).map (·, D)
  | .op f es =>
    (evalEs I U look D es).bind fun r => (I.op f r.1 U).map fun s => (s.1, r.2 ++ s.2)
def evalEs (I : Interp) (U : List Val) (look : List Nat → Nat → Option Val) (D : List Nat) :
    List Expr → Option (List Val × List Nat)
  | [] => some ([], D)
  | e :: es =>
    (evalE I U look D e).bind fun r => (evalEs I U look r.2 es).map fun s => (r.1 :: s.1, s.2)
end

abbrev KEnv := Key → Option Val

def upd (env : KEnv) (k : Key) (v : Val) : KEnv := fun k' => if k' = k then some v else env k'

def lookEnv (isLocal : Nat → Bool) (args : Nat → Val) (env : KEnv) (D : List Nat) (x : Nat) : Option Val :=
  match env (.user x) with
  | some v => if isLocal x then (if x ∈ D then some v else none) else some v
  | none => if isLocal x then none else some (args x)

def lookG (isLocal : Nat → Bool) (args : Nat → Val) (env : KEnv) (al : List Nat) (v : Val) (D : List Nat) (x : Nat) :
    Option Val :=
  if x ∈ al then some v else lookEnv isLocal args env D x

def condVal (env : KEnv) : Cond → Option Bool
  | .pos t => (env (.tmp t)).bind unbox
  | .neg t => ((env (.tmp t)).bind unbox).map (!·)

def condsFrom (env : KEnv) (acc : Option Bool) (conds : List Cond) : Option Bool :=
  conds.foldl (fun acc c => acc.bind fun b => if b then condVal env c else some false) acc

def evalConds (env : KEnv) (conds : List Cond) : Option Bool := condsFrom env (some true) conds

def patTest (I : Interp) (v : Val) : Pat → Bool
  | .leaf k => I.leaf k v
  | .wild => true
  | .capture _ => true
  | .as p _ => patTest I v p
  | .or p q => patTest I v p || patTest I v q

def evalRhs (I : Interp) (isLocal : Nat → Bool) (args : Nat → Val) (U : List Val) (env : KEnv) (D : List Nat)
    (k : Key) (isBool : Bool) : Rhs → Option (Val × List Nat)
  | .expr e =>
    if isBool then
      (evalE I U (lookEnv isLocal args env) D e).bind fun r => (unbox r.1).map fun b => (.bool b, r.2)
    else evalE I U (lookEnv isLocal args env) D e
  | .bin o e =>
    (env k).bind fun a => (evalE I U (lookEnv isLocal args env) D e).bind fun s => (arith o a s.1).map (·, s.2)
  | .subj t => (env (.tmp t)).map (·, D)
  | .pat subj p g al =>
    (env (.tmp subj)).bind fun v =>
      match g with
      | none => some (.bool (patTest I v p), D)
      | some g =>
        if patTest I v p then
          (evalE I U (lookG isLocal args env al v) D g).bind fun r => (I.truth r.1).map fun b => (.bool b, r.2)
        else some (.bool false, D)

def defd (k : Key) (D : List Nat) : List Nat :=
  match k with
  | .user x => D ++ [x]
  | .tmp _ => D

def dummy (isBool : Bool) : Val := if isBool then .bool false else .none

def runW (I : Interp) (isLocal : Nat → Bool) (args : Nat → Val) (U : List Val) (env : KEnv) (D : List Nat) :
    List Wrapper → Option (Val × List Nat)
  | [] => none
  | .ret conds e :: ws =>
    (evalConds env conds).bind fun b =>
      if b then evalE I U (lookEnv isLocal args env) D e else runW I isLocal args U env D ws
  | .assign k isBool conds rhs :: ws =>
    (evalConds env conds).bind fun b =>
      if b then
        (evalRhs I isLocal args U env D k isBool rhs).bind fun r =>
          runW I isLocal args U (upd env k r.1) (defd k r.2) ws
      else runW I isLocal args U (upd env k ((env k).getD (dummy isBool))) D ws
  | .unfold conds p :: ws =>
    (evalConds env conds).bind fun b =>
      if b then
        (evalE I U (lookEnv isLocal args env) D p).bind fun r =>
          if I.held r.1 then runW I isLocal args (r.1 :: U) env r.2 ws else none
      else runW I isLocal args U env D ws
  | .assert conds e :: ws =>
    (evalConds env conds).bind fun b =>
      if b then
        (evalE I U (lookEnv isLocal args env) D e).bind fun r =>
          (I.truth r.1).bind fun c => if c then runW I isLocal args U env r.2 ws else none
      else runW I isLocal args U env D ws

section Stage1
variable {I : Interp} {isLocal : Nat → Bool} {args : Nat → Val}

mutual
theorem eval_trExpr {U : List Val} {ρ : Nat → Option Val} {names : Names} {look : List Nat → Nat → Option Val}
    (hl : ∀ D x, eval I args U ρ D (trVar isLocal names x) = (look D x).map (·, D)) :
    ∀ (e : Expr) (D : List Nat), eval I args U ρ D (trExpr isLocal names e) = evalE I U look D e
  | .lit v, D => by simp [trExpr, eval, evalE]
  | .var x, D => by simp only [trExpr, evalE]; exact hl D x
  | .op f es, D => by simp only [trExpr, eval, evalE, eval_trExprs hl es D]
theorem eval_trExprs {U : List Val} {ρ : Nat → Option Val} {names : Names} {look : List Nat → Nat → Option Val}
    (hl : ∀ D x, eval I args U ρ D (trVar isLocal names x) = (look D x).map (·, D)) :
    ∀ (es : List Expr) (D : List Nat), evalList I args U ρ D (trExprs isLocal names es) = evalEs I U look D es
  | [], D => by simp [trExprs, evalList, evalEs]
  | e :: es, D => by
      simp only [trExprs, evalList, evalEs, eval_trExpr hl e D]
      congr 1
      funext r
      rw [eval_trExprs hl es r.2]
end

/-- Dictionary, let-bound variables and environment belong together. -/
def Rel (names : Names) (ρ : Nat → Option Val) (env : KEnv) : Prop :=
  ∀ k, (names k = none ∧ env k = none) ∨ ∃ i w, names k = some ⟨i, k⟩ ∧ ρ i = some w ∧ env k = some w

theorem eval_trVar {U : List Val} {ρ : Nat → Option Val} {names : Names} {env : KEnv} (h : Rel names ρ env) (D : List Nat)
    (x : Nat) : eval I args U ρ D (trVar isLocal names x) = (lookEnv isLocal args env D x).map (·, D) := by
  unfold trVar lookEnv
  rcases h (.user x) with ⟨h1, h2⟩ | ⟨i, w, h1, h2, h3⟩
  · rw [h1, h2]
    cases hx : isLocal x <;> simp [eval]
  · rw [h1, h3]
    cases hx : isLocal x
    · simp [eval, h2]
    · by_cases hD : x ∈ D <;> simp [eval, h2, hD]

theorem eval_trTmp {U : List Val} {ρ : Nat → Option Val} {names : Names} {env : KEnv} (h : Rel names ρ env) (D : List Nat)
    (t : Nat) : eval I args U ρ D (trTmp names t) = (env (.tmp t)).map (·, D) := by
  unfold trTmp
  rcases h (.tmp t) with ⟨h1, h2⟩ | ⟨i, w, h1, h2, h3⟩
  · simp [h1, h2, eval]
  · simp [h1, h2, h3, eval]

theorem eval_trConds_aux {U : List Val} {ρ : Nat → Option Val} {names : Names} {env : KEnv} (h : Rel names ρ env) (D : List Nat) :
    ∀ (conds : List Cond) (prev : VExpr) (acc : Option Bool),
      eval I args U ρ D prev = acc.map (fun b => (.bool b, D)) →
      eval I args U ρ D (conds.foldl (fun prev c =>
        match c with
        | .pos t => .and prev (trTmp names t)
        | .neg t => .and prev (.not (trTmp names t))) prev) = (condsFrom env acc conds).map (fun b => (.bool b, D)) := by
  intro conds
  induction conds with
  | nil => intro prev acc hp; simpa [condsFrom] using hp
  | cons c cs ih =>
    intro prev acc hp
    rw [List.foldl_cons, condsFrom, List.foldl_cons]
    apply ih
    cases c with
    | pos t =>
      rw [eval, hp]
      cases acc with
      | none => simp
      | some b =>
        cases b with
        | false => simp
        | true =>
          simp only [Option.map_some, Option.bind_some, eval_trTmp h, if_true, condVal]
          cases env (.tmp t) with
          | none => simp
          | some w => cases w <;> simp [unbox]
    | neg t =>
      rw [eval, hp]
      cases acc with
      | none => simp
      | some b =>
        cases b with
        | false => simp
        | true =>
          simp only [Option.map_some, Option.bind_some, eval, eval_trTmp h, if_true, condVal]
          cases env (.tmp t) with
          | none => simp
          | some w => cases w <;> simp [unbox]

theorem eval_trConds {U : List Val} {ρ : Nat → Option Val} {names : Names} {env : KEnv} (h : Rel names ρ env) (D : List Nat)
    (conds : List Cond) :
    eval I args U ρ D (trConds names conds) = (evalConds env conds).map (fun b => (.bool b, D)) :=
  eval_trConds_aux h D conds _ (some true) (by simp [eval])

theorem eval_trPat {U : List Val} {ρ : Nat → Option Val} {D : List Nat} {s : VExpr} {v : Val}
    (hs : eval I args U ρ D s = some (v, D)) : ∀ p : Pat,
    eval I args U ρ D (trPat s p) = some (.bool (patTest I v p), D)
  | .leaf k => by simp [trPat, eval, hs, patTest]
  | .wild => by simp [trPat, eval, patTest]
  | .capture x => by simp [trPat, eval, patTest]
  | .as p x => by simp only [trPat, patTest]; exact eval_trPat hs p
  | .or p q => by
      simp only [trPat, eval, eval_trPat hs p, patTest, Option.bind_some, eval_trPat hs q]
      cases patTest I v p <;> simp [unbox]

theorem eval_guardVar {U : List Val} {ρ : Nat → Option Val} {names : Names} {env : KEnv} (h : Rel names ρ env)
    {subj : Nat} {v : Val} (hs : env (.tmp subj) = some v) (al : List Nat) (D : List Nat) (x : Nat) :
    eval I args U ρ D (trVar isLocal (guardNames names subj al) x) = (lookG isLocal args env al v D x).map (·, D) := by
  rcases h (.tmp subj) with ⟨h1, h2⟩ | ⟨i, w, h1, h2, h3⟩
  · rw [hs] at h2; cases h2
  · rw [hs] at h3
    cases h3
    have key : guardNames names subj al (.user x) = if x ∈ al then some ⟨i, .tmp subj⟩ else names (.user x) := by
      induction al with
      | nil => simp [guardNames]
      | cons y ys ih =>
        simp only [guardNames, h1, Names.set, Key.user.injEq, List.mem_cons]
        by_cases hxy : x = y
        · simp [hxy]
        · simp [hxy, ih]
    by_cases hx : x ∈ al
    · unfold trVar lookG
      rw [key, if_pos hx, if_pos hx]
      simp [eval, h2]
    · have : eval I args U ρ D (trVar isLocal (guardNames names subj al) x) =
          eval I args U ρ D (trVar isLocal names x) := by
        unfold trVar
        rw [key, if_neg hx]
      rw [this, eval_trVar h, lookG, if_neg hx]

theorem eval_rhs {U : List Val} {ρ : Nat → Option Val} {names : Names} {env : KEnv} (h : Rel names ρ env) (D : List Nat)
    (k : Key) (isBool : Bool) (rhs : Rhs) (ve : VExpr) (hr : trRhs isLocal names k rhs = .ok ve)
    (hpat : ∀ s p g al, rhs = .pat s p g al → env (.tmp s) ≠ none) :
    eval I args U ρ D (convert isBool rhs ve) = evalRhs I isLocal args U env D k isBool rhs := by
  cases rhs with
  | expr e =>
    simp only [trRhs, Except.ok.injEq] at hr
    subst hr
    cases isBool with
    | true => simp only [convert, eval, evalRhs, eval_trExpr (eval_trVar h), if_true]
    | false => simp only [convert, evalRhs, eval_trExpr (eval_trVar h)]; simp
  | bin o e =>
    have hc : convert isBool (.bin o e) ve = ve := by cases isBool <;> rfl
    rw [hc]
    simp only [trRhs] at hr
    rcases h k with ⟨h1, h2⟩ | ⟨i, w, h1, h2, h3⟩
    · rw [h1] at hr; cases hr
    · rw [h1] at hr
      simp only [Except.ok.injEq] at hr
      subst hr
      simp [eval, evalRhs, h2, h3, eval_trExpr (eval_trVar h)]
  | subj t =>
    have hc : convert isBool (.subj t) ve = ve := by cases isBool <;> rfl
    rw [hc]
    simp only [trRhs, Except.ok.injEq] at hr
    subst hr
    rw [eval_trTmp h]
    rfl
  | pat s p g al =>
    have hc : convert isBool (.pat s p g al) ve = ve := by cases isBool <;> rfl
    rw [hc]
    cases hv : env (.tmp s) with
    | none => exact absurd hv (hpat s p g al rfl)
    | some v =>
      have hs : eval I args U ρ D (trTmp names s) = some (v, D) := by rw [eval_trTmp h, hv]; rfl
      simp only [trRhs] at hr
      cases g with
      | none =>
        simp only [Except.ok.injEq] at hr
        subst hr
        simp [evalRhs, hv, eval_trPat hs]
      | some g =>
        simp only [Except.ok.injEq] at hr
        subst hr
        simp only [evalRhs, hv, eval, eval_trPat hs, Option.bind_some]
        cases patTest I v p with
        | false => simp
        | true =>
          simp only [eval_trExpr (eval_guardVar h hv al), if_true]
          cases evalE I U (lookG isLocal args env al v) D g with
          | none => rfl
          | some r =>
            simp only [Option.bind_some]
            cases I.truth r.1 <;> simp [unbox]

theorem rel_upd {names : Names} {ρ : Nat → Option Val} {env : KEnv} (h : Rel names ρ env) (i : Nat) (k : Key) (v : Val)
    (hi : ∀ k' w, names k' = some w → w.idx < i) :
    Rel (names.set k ⟨i, k⟩) (fun j => if j = i then some v else ρ j) (upd env k v) := by
  intro k'
  by_cases hk : k' = k
  · subst hk
    right
    exact ⟨i, v, by simp [Names.set], by simp, by simp [upd]⟩
  · rcases h k' with ⟨h1, h2⟩ | ⟨j, w, h1, h2, h3⟩
    · left; simp [Names.set, upd, hk, h1, h2]
    · right
      have := hi k' _ h1
      refine ⟨j, w, by simp [Names.set, hk, h1], ?_, by simp [upd, hk, h3]⟩
      have hne : j ≠ i := Nat.ne_of_lt this
      simp [hne, h2]

theorem eval_old {U : List Val} {ρ : Nat → Option Val} {names : Names} {env : KEnv} (h : Rel names ρ env) (D : List Nat)
    (k : Key) (isBool : Bool) :
    eval I args U ρ D (oldValue names k isBool) = some ((env k).getD (dummy isBool), D) := by
  unfold oldValue
  rcases h k with ⟨h1, h2⟩ | ⟨i, w, h1, h2, h3⟩
  · simp [h1, h2, eval, dummy]
  · simp [h1, h2, h3, eval]

theorem eval_assume {U : List Val} {ρ : Nat → Option Val} (D : List Nat) (k : Key) (ve : VExpr) :
    eval I args U ρ D (assumeDefined k ve) = (eval I args U ρ D ve).map fun r => (r.1, defd k r.2) := by
  cases k with
  | user x => simp [assumeDefined, eval, defd]
  | tmp t => simp [assumeDefined, defd]

/-- Subjects of patterns are assigned to before. -/
def SubjOk : (Nat → Bool) → List Wrapper → Prop
  | _, [] => True
  | S, .assign k _ _ rhs :: ws =>
    (∀ s p g al, rhs = .pat s p g al → S s = true) ∧
      SubjOk (fun t => S t || decide (k = .tmp t)) ws
  | S, _ :: ws => SubjOk S ws

theorem trWrappers_none {i : Nat} {names : Names} {ws : List Wrapper} (h : trWrappers isLocal i names ws = .ok none) :
    ws = [] := by
  cases ws with
  | nil => rfl
  | cons w ws =>
    simp only [trWrappers] at h
    split at h
    · cases h
    · split at h <;> cases h

/-- The expression for wrappers has the value of running them. -/
theorem eval_trWrappers : ∀ (ws : List Wrapper) (i : Nat) (names : Names) (ve : VExpr) (U : List Val)
    (ρ : Nat → Option Val) (env : KEnv) (D : List Nat) (S : Nat → Bool),
    trWrappers isLocal i names ws = .ok (some ve) → Rel names ρ env → (∀ k w, names k = some w → w.idx < i) →
    (∀ t, S t = true → env (.tmp t) ≠ none) → SubjOk S ws →
    eval I args U ρ D ve = runW I isLocal args U env D ws := by
  intro ws
  induction ws with
  | nil => intro i names ve U ρ env D S h; cases h
  | cons w ws ih =>
    intro i names ve U ρ env D S h hr hi hS hsub
    simp only [trWrappers] at h
    split at h
    · cases h
    · rename_i prev hprev
      split at h
      · cases h
      · rename_i v hv
        cases h
        have hlt : ∀ {k : Key} {w : Var}, names k = some w → w.idx < i + 1 :=
          fun hk => Nat.lt_succ_of_lt (hi _ _ hk)
        cases w with
        | ret conds e =>
          simp only [SubjOk] at hsub
          simp only [trWrapper] at hv
          have hrun : ∀ p, prev = some p → eval I args U ρ D p = runW I isLocal args U env D ws := by
            rintro p rfl
            exact ih _ _ _ _ _ _ _ S hprev hr (fun k w hk => hlt hk) hS hsub
          rw [runW]
          cases conds with
          | nil =>
            simp only [List.isEmpty_nil, if_true] at hv
            cases prev with
            | some p => cases hv
            | none =>
              cases hv
              simp [evalConds, condsFrom, eval_trExpr (eval_trVar hr)]
          | cons c cs =>
            simp only [List.isEmpty_cons, Bool.false_eq_true, if_false] at hv
            cases prev with
            | some p =>
              cases hv
              rw [eval, eval_trConds hr]
              cases evalConds env (c :: cs) with
              | none => rfl
              | some b =>
                cases b
                · simp [hrun p rfl]
                · simp [eval_trExpr (eval_trVar hr)]
            | none =>
              cases hv
              rw [eval, eval_trConds hr, trWrappers_none hprev]
              cases evalConds env (c :: cs) with
              | none => rfl
              | some b =>
                cases b
                · simp [runW, eval]
                · simp [eval_trExpr (eval_trVar hr)]
        | unfold conds q =>
          simp only [SubjOk] at hsub
          simp only [trWrapper] at hv
          cases prev with
          | none => cases hv
          | some p =>
            have hrun : ∀ U D, eval I args U ρ D p = runW I isLocal args U env D ws := fun U D =>
              ih _ _ _ _ _ _ _ S hprev hr (fun k w hk => hlt hk) hS hsub
            have hu : eval I args U ρ D (.unfolding (trExpr isLocal names q) p) =
                (evalE I U (lookEnv isLocal args env) D q).bind fun r =>
                  if I.held r.1 then runW I isLocal args (r.1 :: U) env r.2 ws else none := by
              rw [eval, eval_trExpr (eval_trVar hr)]
              congr 1
              funext r
              rw [hrun]
            rw [runW]
            cases conds with
            | nil =>
              cases hv
              rw [hu]
              simp [evalConds, condsFrom]
            | cons c cs =>
              cases hv
              rw [eval, eval_trConds hr]
              cases evalConds env (c :: cs) with
              | none => rfl
              | some b =>
                cases b
                · simp [hrun]
                · simp [hu]
        | assert conds q =>
          simp only [SubjOk] at hsub
          simp only [trWrapper] at hv
          cases prev with
          | none => cases hv
          | some p =>
            have hrun : ∀ U D, eval I args U ρ D p = runW I isLocal args U env D ws := fun U D =>
              ih _ _ _ _ _ _ _ S hprev hr (fun k w hk => hlt hk) hS hsub
            have hu : eval I args U ρ D (.asserting (.truth (trExpr isLocal names q)) p) =
                (evalE I U (lookEnv isLocal args env) D q).bind fun r =>
                  (I.truth r.1).bind fun c => if c then runW I isLocal args U env r.2 ws else none := by
              rw [eval, eval, eval_trExpr (eval_trVar hr)]
              cases evalE I U (lookEnv isLocal args env) D q with
              | none => rfl
              | some r =>
                simp only [Option.bind_some]
                cases I.truth r.1 with
                | none => rfl
                | some b => simp [hrun]
            rw [runW]
            cases conds with
            | nil =>
              cases hv
              rw [hu]
              simp [evalConds, condsFrom]
            | cons c cs =>
              cases hv
              rw [eval, eval_trConds hr]
              cases evalConds env (c :: cs) with
              | none => rfl
              | some b =>
                cases b
                · simp [hrun]
                · simp [hu]
        | assign k isBool conds rhs =>
          simp only [SubjOk] at hsub
          simp only [trWrapper] at hv
          split at hv
          · cases hv
          · rename_i rv hrv
            cases prev with
            | none => cases hv
            | some p =>
              have hval : ∀ D, eval I args U ρ D (assumeDefined k (convert isBool rhs rv)) =
                  (evalRhs I isLocal args U env D k isBool rhs).map fun r => (r.1, defd k r.2) := by
                intro D
                rw [eval_assume, eval_rhs hr D k isBool rhs rv hrv
                  (fun s p g al hp => hS s (hsub.1 s p g al hp))]
              have hrun : ∀ w D, eval I args U (fun j => if j = i then some w else ρ j) D p =
                  runW I isLocal args U (upd env k w) D ws := by
                intro w D
                refine ih _ _ _ _ _ _ _ _ hprev (rel_upd hr i k w hi) ?_ ?_ hsub.2
                · intro k' w' hk'
                  simp only [nextNames, Names.set] at hk'
                  split at hk'
                  · cases hk'; exact Nat.lt_succ_self i
                  · exact hlt hk'
                · intro t ht
                  simp only [Bool.or_eq_true, decide_eq_true_eq] at ht
                  unfold upd
                  split
                  · simp
                  · rename_i hne
                    rcases ht with ht | ht
                    · exact hS t ht
                    · exact absurd ht.symm hne
              rw [runW]
              cases conds with
              | nil =>
                cases hv
                rw [eval, hval]
                simp only [evalConds, condsFrom, List.foldl_nil, Option.bind_some, if_true]
                cases evalRhs I isLocal args U env D k isBool rhs with
                | none => rfl
                | some r => simp [hrun]
              | cons c cs =>
                cases hv
                rw [eval, eval, eval_trConds hr]
                cases evalConds env (c :: cs) with
                | none => rfl
                | some b =>
                  cases b
                  · simp [eval_old hr, hrun]
                  · simp only [Option.map_some, Option.bind_some, hval, if_true]
                    cases evalRhs I isLocal args U env D k isBool rhs with
                    | none => rfl
                    | some r => simp [hrun]

end Stage1

/-! ### Stage 2: running wrappers and running the program -/

def Cond.idx : Cond → Nat
  | .pos t => t
  | .neg t => t

def CondsLt (n : Nat) (conds : List Cond) : Prop := ∀ c ∈ conds, c.idx < n

def Keep (n : Nat) (env env' : KEnv) : Prop := ∀ t < n, env' (.tmp t) = env (.tmp t)

theorem Keep.rfl {n : Nat} {env : KEnv} : Keep n env env := fun _ _ => Eq.refl _

theorem Keep.trans {n m : Nat} {e1 e2 e3 : KEnv} (h : Keep n e1 e2) (h' : Keep m e2 e3) (hnm : n ≤ m) : Keep n e1 e3 :=
  fun t ht => (h' t (Nat.lt_of_lt_of_le ht hnm)).trans (h t ht)

theorem Keep.le {n m : Nat} {e1 e2 : KEnv} (h : Keep m e1 e2) (hnm : n ≤ m) : Keep n e1 e2 :=
  fun t ht => h t (Nat.lt_of_lt_of_le ht hnm)

theorem keep_user {n x : Nat} {env : KEnv} {v : Val} : Keep n env (upd env (.user x) v) := by
  intro t _; simp [upd]

theorem keep_tmp {n : Nat} {env : KEnv} {v : Val} : Keep n env (upd env (.tmp n) v) := by
  intro t ht; simp [upd, Nat.ne_of_lt ht]

theorem evalConds_append (env : KEnv) (conds : List Cond) (c : Cond) :
    evalConds env (conds ++ [c]) = (evalConds env conds).bind fun b => if b then condVal env c else some false := by
  simp [evalConds, condsFrom, List.foldl_append]

theorem condVal_keep {n : Nat} {env env' : KEnv} (h : Keep n env env') {c : Cond} (hc : c.idx < n) :
    condVal env' c = condVal env c := by
  cases c with
  | pos t => simp only [condVal, h t hc]
  | neg t => simp only [condVal, h t hc]

theorem condsFrom_keep {n : Nat} {env env' : KEnv} (h : Keep n env env') : ∀ {conds : List Cond} (acc : Option Bool),
    CondsLt n conds → condsFrom env' acc conds = condsFrom env acc conds := by
  intro conds
  induction conds with
  | nil => intro acc _; rfl
  | cons c cs ih =>
    intro acc hc
    have := ih (acc.bind fun b => if b then condVal env c else some false) (fun d hd => hc d (List.mem_cons_of_mem _ hd))
    simp only [condsFrom, List.foldl_cons] at this ⊢
    rw [condVal_keep h (hc c List.mem_cons_self)]
    exact this

theorem evalConds_keep {n : Nat} {env env' : KEnv} (h : Keep n env env') {conds : List Cond} (hc : CondsLt n conds) :
    evalConds env' conds = evalConds env conds := condsFrom_keep h _ hc

theorem condsLt_append {n : Nat} {conds : List Cond} (h : CondsLt n conds) {c : Cond} (hc : c.idx = n) :
    CondsLt (n + 1) (conds ++ [c]) := by
  intro d hd
  rcases List.mem_append.1 hd with hd | hd
  · exact Nat.lt_succ_of_lt (h d hd)
  · simp only [List.mem_singleton] at hd
    subst hd
    omega

theorem CondsLt.le {n m : Nat} {conds : List Cond} (h : CondsLt n conds) (hnm : n ≤ m) : CondsLt m conds :=
  fun c hc => Nat.lt_of_lt_of_le (h c hc) hnm

mutual
theorem wrapStmt_le : ∀ (s : Stmt) (n : Nat) (conds : List Cond), n ≤ (wrapStmt n conds s).2
  | .assign _ _, n, conds => by simp [wrapStmt]
  | .aug _ _ _, n, conds => by simp [wrapStmt]
  | .ite t th el, n, conds => by
      simp only [wrapStmt]
      have h1 := wrapBlock_le th (n + 1) (conds ++ [.pos n])
      have h2 := wrapBlock_le el (wrapBlock (n + 1) (conds ++ [.pos n]) th).2 (conds ++ [.neg n])
      omega
  | .ret _, n, conds => by simp [wrapStmt]
  | .assert _, n, conds => by simp [wrapStmt]
  | .unfold _, n, conds => by simp [wrapStmt]
  | .mtch e cs, n, conds => by
      simp only [wrapStmt]
      have h1 := wrapCases_le cs (n + 1) n conds
      omega
  | .doc, n, conds => by simp [wrapStmt]
theorem wrapBlock_le : ∀ (b : Block) (n : Nat) (conds : List Cond), n ≤ (wrapBlock n conds b).2
  | .nil, n, conds => by simp [wrapBlock]
  | .cons s b, n, conds => by
      simp only [wrapBlock]
      have h1 := wrapStmt_le s n conds
      have h2 := wrapBlock_le b (wrapStmt n conds s).2 conds
      omega
theorem wrapCases_le : ∀ (cs : Cases) (n subj : Nat) (conds : List Cond), n ≤ (wrapCases n subj conds cs).2
  | .nil, n, subj, conds => by simp [wrapCases]
  | .cons p g b cs, n, subj, conds => by
      simp only [wrapCases]
      have h1 := wrapBlock_le b (n + 1) (conds ++ [.pos n])
      have h2 := wrapCases_le cs (wrapBlock (n + 1) (conds ++ [.pos n]) b).2 subj (conds ++ [.neg n])
      omega
end

mutual
theorem okStmt_A {isLocal : Nat → Bool} : ∀ (s : Stmt) (F F' : Flow), okStmt isLocal false F s = some F' → F'.A = F.A
  | .assign x e, F, F', h => by
      simp only [okStmt] at h
      split at h
      · cases h; rfl
      · cases h
  | .aug x o e, F, F', h => by
      simp only [okStmt] at h
      split at h
      · cases h; rfl
      · cases h
  | .ite t th el, F, F', h => by
      simp only [okStmt] at h
      split at h
      · simp only [Option.bind_eq_some_iff, Option.map_eq_some_iff] at h
        obtain ⟨_, _, _, _, rfl⟩ := h
        rfl
      · cases h
  | .ret e, F, F', h => by
      simp only [okStmt] at h
      split at h
      · cases h; rfl
      · cases h
  | .assert e, F, F', h => by
      simp only [okStmt] at h
      split at h
      · cases h; rfl
      · cases h
  | .unfold e, F, F', h => by
      simp only [okStmt] at h
      split at h
      · cases h; rfl
      · cases h
  | .mtch e cs, F, F', h => by
      simp only [okStmt] at h
      split at h
      · exact okCases_A cs F F' h
      · cases h
  | .doc, F, F', h => by
      simp only [okStmt] at h
      cases h; rfl
theorem okBlock_A {isLocal : Nat → Bool} : ∀ (b : Block) (F F' : Flow), okBlock isLocal false F b = some F' → F'.A = F.A
  | .nil, F, F', h => by simp only [okBlock] at h; cases h; rfl
  | .cons s b, F, F', h => by
      simp only [okBlock, Option.bind_eq_some_iff] at h
      obtain ⟨F1, h1, h2⟩ := h
      rw [okBlock_A b F1 F' h2, okStmt_A s F F1 h1]
theorem okCases_A {isLocal : Nat → Bool} : ∀ (cs : Cases) (F F' : Flow), okCases isLocal F cs = some F' → F'.A = F.A
  | .nil, F, F', h => by simp only [okCases] at h; cases h; rfl
  | .cons p g b cs, F, F', h => by
      simp only [okCases] at h
      split at h
      · simp only [Option.bind_eq_some_iff, Option.map_eq_some_iff] at h
        obtain ⟨_, _, _, _, rfl⟩ := h
        rfl
      · cases h
end

section Stage2
variable {I : Interp} {isLocal : Nat → Bool} {args : Nat → Val}

structure SkipR (isLocal : Nat → Bool) (n : Nat) (env env' : KEnv) : Prop where
  user : ∀ x, env' (.user x) = env (.user x) ∨
    (isLocal x = true ∧ env (.user x) = none ∧ env' (.user x) = some .none)
  keep : Keep n env env'

theorem SkipR.rfl {n : Nat} {env : KEnv} : SkipR isLocal n env env := ⟨fun _ => .inl (Eq.refl _), Keep.rfl⟩

theorem SkipR.trans {n m : Nat} {e1 e2 e3 : KEnv} (h : SkipR isLocal n e1 e2) (h' : SkipR isLocal m e2 e3) (hnm : n ≤ m) :
    SkipR isLocal n e1 e3 := by
  refine ⟨fun x => ?_, h.keep.trans h'.keep hnm⟩
  rcases h.user x with h1 | ⟨h1, h2, h3⟩
  · rw [← h1]; exact h'.user x
  · rcases h'.user x with h4 | ⟨_, h5, _⟩
    · exact .inr ⟨h1, h2, h4.trans h3⟩
    · rw [h3] at h5; cases h5

theorem SkipR.le {n m : Nat} {e1 e2 : KEnv} (h : SkipR isLocal m e1 e2) (hnm : n ≤ m) : SkipR isLocal n e1 e2 :=
  ⟨h.user, h.keep.le hnm⟩

theorem SkipR.alias {n : Nat} {e1 e2 : KEnv} (h : SkipR isLocal n e1 e2) {A : List Nat}
    (hA : ∀ x ∈ A, e1 (.user x) ≠ none) : ∀ x ∈ A, e2 (.user x) ≠ none := by
  intro x hx
  rcases h.user x with h1 | ⟨_, h2, _⟩
  · rw [h1]; exact hA x hx
  · exact absurd h2 (hA x hx)

theorem skip_tmp {n : Nat} {env : KEnv} {v : Val} : SkipR isLocal n env (upd env (.tmp n) v) :=
  ⟨fun x => .inl (by simp [upd]), keep_tmp⟩

theorem skip_user {n x : Nat} {env : KEnv} {A : List Nat} (hA : ∀ x ∈ A, env (.user x) ≠ none)
    (hx : isLocal x = true ∨ x ∈ A) :
    SkipR isLocal n env (upd env (.user x) ((env (.user x)).getD (dummy false))) := by
  refine ⟨fun y => ?_, keep_user⟩
  by_cases hy : y = x
  · subst hy
    cases he : env (.user y) with
    | some v => left; simp [upd]
    | none =>
      right
      rcases hx with hx | hx
      · exact ⟨hx, Eq.refl _, by simp [upd, dummy]⟩
      · exact absurd he (hA y hx)
  · left; simp [upd, hy]

theorem skip_caps {n : Nat} {conds : List Cond} {subj : Nat} (hc : CondsLt n conds) {U : List Val} {D : List Nat}
    {rest : List Wrapper} {A : List Nat} : ∀ (caps : List Nat) (env : KEnv), (∀ x ∈ A, env (.user x) ≠ none) →
    (∀ x ∈ caps, isLocal x = true ∨ x ∈ A) → evalConds env conds = some false →
    ∃ env', SkipR isLocal n env env' ∧
      runW I isLocal args U env D (caps.map (fun x => .assign (.user x) false conds (.subj subj)) ++ rest) =
        runW I isLocal args U env' D rest := by
  intro caps
  induction caps with
  | nil => intro env _ _ _; exact ⟨env, SkipR.rfl, rfl⟩
  | cons x xs ih =>
    intro env hA hx he
    have h1 : SkipR isLocal n env (upd env (.user x) ((env (.user x)).getD (dummy false))) :=
      skip_user hA (hx x List.mem_cons_self)
    obtain ⟨env', h2, h3⟩ := ih _ (h1.alias hA) (fun y hy => hx y (List.mem_cons_of_mem _ hy))
      ((evalConds_keep h1.keep hc).trans he)
    refine ⟨env', h1.trans h2 (Nat.le_refl _), ?_⟩
    rw [List.map_cons, List.cons_append, runW, he]
    simpa using h3

theorem captures_binds : ∀ p : Pat, p.plain = true → captures p = binds p
  | .leaf _, _ => rfl
  | .wild, _ => rfl
  | .capture _, _ => rfl
  | .as p x, h => by simp only [captures, binds, captures_binds p h]
  | .or p q, h => by
      simp only [Pat.plain, Bool.and_eq_true, List.isEmpty_iff] at h
      simp [captures, binds, h.1, h.2]

theorem false_append {env : KEnv} {conds : List Cond} (h : evalConds env conds = some false) (c : Cond) :
    evalConds env (conds ++ [c]) = some false := by
  rw [evalConds_append, h]; rfl

mutual
theorem skipStmt : ∀ (s : Stmt) (n : Nat) (conds : List Cond) (F F' : Flow) (env : KEnv) (D : List Nat) (U : List Val)
    (rest : List Wrapper), okStmt isLocal false F s = some F' → (∀ x ∈ F.A, env (.user x) ≠ none) → CondsLt n conds →
    evalConds env conds = some false →
    ∃ env', SkipR isLocal n env env' ∧
      runW I isLocal args U env D ((wrapStmt n conds s).1 ++ rest) = runW I isLocal args U env' D rest
  | .assign x e, n, conds, F, F', env, D, U, rest, ho, hA, hc, he => by
      simp only [okStmt, Bool.or_false, Bool.or_eq_true, Bool.and_eq_true, List.contains_iff_mem] at ho
      split at ho
      · rename_i h
        exact ⟨_, skip_user hA h.2, by simp [wrapStmt, runW, he]⟩
      · cases ho
  | .aug x o e, n, conds, F, F', env, D, U, rest, ho, hA, hc, he => by
      simp only [okStmt, Bool.or_eq_true, Bool.and_eq_true, List.contains_iff_mem] at ho
      split at ho
      · rename_i h
        exact ⟨_, skip_user hA h.2, by simp [wrapStmt, runW, he]⟩
      · cases ho
  | .ite t th el, n, conds, F, F', env, D, U, rest, ho, hA, hc, he => by
      simp only [okStmt] at ho
      split at ho
      · simp only [Option.bind_eq_some_iff, Option.map_eq_some_iff] at ho
        obtain ⟨F1, h1, F2, h2, rfl⟩ := ho
        have s0 : SkipR isLocal n env (upd env (.tmp n) ((env (.tmp n)).getD (dummy true))) := skip_tmp
        have e0 := (evalConds_keep s0.keep hc).trans he
        obtain ⟨env1, s1, r1⟩ := skipBlock th (n + 1) (conds ++ [.pos n]) F F1 _ D U
          ((wrapBlock (wrapBlock (n + 1) (conds ++ [.pos n]) th).2 (conds ++ [.neg n]) el).1 ++ rest) h1
          (s0.alias hA) (condsLt_append hc rfl) (false_append e0 _)
        have e1 := (evalConds_keep (s1.keep.le (Nat.le_succ n)) hc).trans e0
        have hle := wrapBlock_le th (n + 1) (conds ++ [.pos n])
        obtain ⟨env2, s2, r2⟩ := skipBlock el (wrapBlock (n + 1) (conds ++ [.pos n]) th).2 (conds ++ [.neg n]) F F2 env1 D U
          rest h2 (s1.alias (s0.alias hA)) ((condsLt_append hc rfl).le hle) (false_append e1 _)
        refine ⟨env2, s0.trans (s1.trans s2 hle) (Nat.le_succ n), ?_⟩
        rw [wrapStmt, List.cons_append, runW, he]
        simp only [Option.bind_some, Bool.false_eq_true, if_false, List.append_assoc]
        rw [r1, r2]
      · cases ho
  | .ret e, n, conds, F, F', env, D, U, rest, ho, hA, hc, he => ⟨env, SkipR.rfl, by simp [wrapStmt, runW, he]⟩
  | .assert e, n, conds, F, F', env, D, U, rest, ho, hA, hc, he => ⟨env, SkipR.rfl, by simp [wrapStmt, runW, he]⟩
  | .unfold e, n, conds, F, F', env, D, U, rest, ho, hA, hc, he => ⟨env, SkipR.rfl, by simp [wrapStmt, runW, he]⟩
  | .mtch e cs, n, conds, F, F', env, D, U, rest, ho, hA, hc, he => by
      simp only [okStmt] at ho
      split at ho
      · have s0 : SkipR isLocal n env (upd env (.tmp n) ((env (.tmp n)).getD (dummy false))) := skip_tmp
        obtain ⟨env1, s1, r1⟩ := skipCases cs (n + 1) n conds F F' _ D U rest ho (s0.alias hA) (hc.le (Nat.le_succ n))
          ((evalConds_keep s0.keep hc).trans he)
        refine ⟨env1, s0.trans s1 (Nat.le_succ n), ?_⟩
        rw [wrapStmt, List.cons_append, runW, he]
        simpa using r1
      · cases ho
  | .doc, n, conds, F, F', env, D, U, rest, ho, hA, hc, he => ⟨env, SkipR.rfl, by simp [wrapStmt]⟩
theorem skipBlock : ∀ (b : Block) (n : Nat) (conds : List Cond) (F F' : Flow) (env : KEnv) (D : List Nat) (U : List Val)
    (rest : List Wrapper), okBlock isLocal false F b = some F' → (∀ x ∈ F.A, env (.user x) ≠ none) → CondsLt n conds →
    evalConds env conds = some false →
    ∃ env', SkipR isLocal n env env' ∧
      runW I isLocal args U env D ((wrapBlock n conds b).1 ++ rest) = runW I isLocal args U env' D rest
  | .nil, n, conds, F, F', env, D, U, rest, ho, hA, hc, he => ⟨env, SkipR.rfl, by simp [wrapBlock]⟩
  | .cons s b, n, conds, F, F', env, D, U, rest, ho, hA, hc, he => by
      simp only [okBlock, Option.bind_eq_some_iff] at ho
      obtain ⟨F1, h1, h2⟩ := ho
      obtain ⟨env1, s1, r1⟩ := skipStmt s n conds F F1 env D U ((wrapBlock (wrapStmt n conds s).2 conds b).1 ++ rest)
        h1 hA hc he
      have hle := wrapStmt_le s n conds
      obtain ⟨env2, s2, r2⟩ := skipBlock b (wrapStmt n conds s).2 conds F1 F' env1 D U rest h2
        (by rw [okStmt_A s F F1 h1]; exact s1.alias hA) (hc.le hle) ((evalConds_keep s1.keep hc).trans he)
      refine ⟨env2, s1.trans s2 hle, ?_⟩
      rw [wrapBlock, List.append_assoc, r1, r2]
theorem skipCases : ∀ (cs : Cases) (n subj : Nat) (conds : List Cond) (F F' : Flow) (env : KEnv) (D : List Nat)
    (U : List Val) (rest : List Wrapper), okCases isLocal F cs = some F' → (∀ x ∈ F.A, env (.user x) ≠ none) →
    CondsLt n conds → evalConds env conds = some false →
    ∃ env', SkipR isLocal n env env' ∧
      runW I isLocal args U env D ((wrapCases n subj conds cs).1 ++ rest) = runW I isLocal args U env' D rest
  | .nil, n, subj, conds, F, F', env, D, U, rest, ho, hA, hc, he => ⟨env, SkipR.rfl, by simp [wrapCases]⟩
  | .cons p g b cs, n, subj, conds, F, F', env, D, U, rest, ho, hA, hc, he => by
      simp only [okCases] at ho
      split at ho
      · rename_i hcond
        simp only [Bool.and_eq_true, List.all_eq_true, Bool.or_eq_true, List.contains_iff_mem] at hcond
        simp only [Option.bind_eq_some_iff, Option.map_eq_some_iff] at ho
        obtain ⟨F1, h1, F2, h2, rfl⟩ := ho
        have s0 : SkipR isLocal n env (upd env (.tmp n) ((env (.tmp n)).getD (dummy true))) := skip_tmp
        have e0 := (evalConds_keep s0.keep hc).trans he
        obtain ⟨env1, s1, r1⟩ := skip_caps (I := I) (isLocal := isLocal) (args := args) (n := n + 1)
          (conds := conds ++ [.pos n]) (subj := subj) (condsLt_append hc rfl) (U := U) (D := D)
          (rest := (wrapBlock (n + 1) (conds ++ [.pos n]) b).1 ++
            ((wrapCases (wrapBlock (n + 1) (conds ++ [.pos n]) b).2 subj (conds ++ [.neg n]) cs).1 ++ rest))
          (captures p) _ (s0.alias hA) (by rw [captures_binds p hcond.1.1]; exact hcond.1.2) (false_append e0 _)
        have e1 := (evalConds_keep (s1.keep.le (Nat.le_succ n)) hc).trans e0
        obtain ⟨env2, s2, r2⟩ := skipBlock b (n + 1) (conds ++ [.pos n]) _ F1 env1 D U
          ((wrapCases (wrapBlock (n + 1) (conds ++ [.pos n]) b).2 subj (conds ++ [.neg n]) cs).1 ++ rest) h1
          (s1.alias (s0.alias hA)) (condsLt_append hc rfl) (false_append e1 _)
        have e2 := (evalConds_keep (s2.keep.le (Nat.le_succ n)) hc).trans e1
        have hle := wrapBlock_le b (n + 1) (conds ++ [.pos n])
        obtain ⟨env3, s3, r3⟩ := skipCases cs (wrapBlock (n + 1) (conds ++ [.pos n]) b).2 subj (conds ++ [.neg n]) _ F2 env2 D U
          rest h2 (s2.alias (s1.alias (s0.alias hA))) ((condsLt_append hc rfl).le hle) (false_append e2 _)
        refine ⟨env3, s0.trans (s1.trans (s2.trans s3 hle) (Nat.le_refl _)) (Nat.le_succ n), ?_⟩
        rw [wrapCases, List.cons_append, runW, he]
        simp only [Option.bind_some, Bool.false_eq_true, if_false, List.append_assoc]
        rw [r1, r2, r3]
      · cases ho
end

/-! Invariant -/

def DEq (isLocal : Nat → Bool) (D D' : List Nat) : Prop := ∀ x, isLocal x = true → (x ∈ D' ↔ x ∈ D)

theorem DEq.rfl {D : List Nat} : DEq isLocal D D := fun _ _ => Iff.rfl

theorem DEq.trans {D1 D2 D3 : List Nat} (h : DEq isLocal D1 D2) (h' : DEq isLocal D2 D3) : DEq isLocal D1 D3 :=
  fun x hx => (h' x hx).trans (h x hx)

def LocOk (σ : Option Val) (e : Option Val) (d : Prop) : Prop :=
  match σ with
  | some v => e = some v ∧ d
  | none => ¬ d ∧ (e = none ∨ e = some .none)

structure Inv (isLocal : Nat → Bool) (args : Nat → Val) (F : Flow) (σ : Env) (env : KEnv) (D : List Nat) : Prop where
  ali : ∀ x ∈ F.A, env (.user x) ≠ none
  loc : ∀ x, isLocal x = true → x ∉ F.H → LocOk (σ x) (env (.user x)) (x ∈ D)
  par : ∀ x, isLocal x = false → x ∉ F.H → σ x = some ((env (.user x)).getD (args x))

theorem LocOk.congr {σ e : Option Val} {d d' : Prop} (h : LocOk σ e d) (hd : d' ↔ d) : LocOk σ e d' := by
  unfold LocOk at *
  cases σ <;> simp_all

theorem Inv.deq {F : Flow} {σ : Env} {env : KEnv} {D D' : List Nat} (h : Inv isLocal args F σ env D)
    (hd : DEq isLocal D D') : Inv isLocal args F σ env D' :=
  ⟨h.ali, fun x hx hh => (h.loc x hx hh).congr (hd x hx), h.par⟩

theorem Inv.weaken {F F' : Flow} {σ : Env} {env : KEnv} {D : List Nat} (h : Inv isLocal args F σ env D)
    (hA : ∀ x ∈ F'.A, x ∈ F.A) (hH : ∀ x ∈ F.H, x ∈ F'.H) : Inv isLocal args F' σ env D :=
  ⟨fun x hx => h.ali x (hA x hx), fun x hx hh => h.loc x hx (fun hn => hh (hH x hn)),
    fun x hx hh => h.par x hx (fun hn => hh (hH x hn))⟩

theorem Inv.skip {F : Flow} {σ : Env} {env env' : KEnv} {D : List Nat} {n : Nat} (h : Inv isLocal args F σ env D)
    (hs : SkipR isLocal n env env') : Inv isLocal args F σ env' D := by
  refine ⟨hs.alias h.ali, fun x hx hh => ?_, fun x hx hh => ?_⟩
  · have h1 := h.loc x hx hh
    rcases hs.user x with h2 | ⟨_, h3, h4⟩
    · rw [h2]; exact h1
    · unfold LocOk at *
      cases hσ : σ x with
      | some v => rw [hσ] at h1; rw [h3] at h1; exact absurd h1.1 (by simp)
      | none => rw [hσ] at h1; exact ⟨h1.1, .inr h4⟩
  · rcases hs.user x with h2 | ⟨h1, _, _⟩
    · rw [h2]; exact h.par x hx hh
    · rw [hx] at h1; cases h1

theorem Inv.tmp {F : Flow} {σ : Env} {env : KEnv} {D : List Nat} (h : Inv isLocal args F σ env D) (n : Nat) (v : Val) :
    Inv isLocal args F σ (upd env (.tmp n) v) D := h.skip (skip_tmp (n := n))

/-- Assigning to a variable on both sides. -/
theorem Inv.set {F : Flow} {σ : Env} {env : KEnv} {D : List Nat} (h : Inv isLocal args F σ env D) (x : Nat) (v : Val)
    {F' : Flow} (hA : ∀ y ∈ F'.A, y = x ∨ y ∈ F.A) (hH : ∀ y ∈ F.H, y ≠ x → y ∈ F'.H) :
    Inv isLocal args F' (σ.set x v) (upd env (.user x) v) (D ++ [x]) := by
  refine ⟨fun y hy => ?_, fun y hy hh => ?_, fun y hy hh => ?_⟩
  · by_cases hyx : y = x
    · simp [upd, hyx]
    · have := h.ali y ((hA y hy).resolve_left hyx)
      simpa [upd, hyx] using this
  · by_cases hyx : y = x
    · simp [LocOk, upd, hyx, Env.set]
    · have := h.loc y hy (fun hn => hh (hH y hn hyx))
      have h2 : (σ.set x v) y = σ y := by simp [Env.set, hyx]
      have h3 : upd env (.user x) v (.user y) = env (.user y) := by simp [upd, hyx]
      rw [h2, h3]
      exact this.congr (by simp [hyx])
  · by_cases hyx : y = x
    · simp [upd, hyx, Env.set]
    · have := h.par y hy (fun hn => hh (hH y hn hyx))
      have h2 : (σ.set x v) y = σ y := by simp [Env.set, hyx]
      have h3 : upd env (.user x) v (.user y) = env (.user y) := by simp [upd, hyx]
      rw [h2, h3]
      exact this

theorem Inv.look {F : Flow} {σ : Env} {env : KEnv} {D : List Nat} (h : Inv isLocal args F σ env D) {x : Nat}
    (hx : x ∉ F.H) : lookEnv isLocal args env D x = σ x := by
  unfold lookEnv
  cases hl : isLocal x with
  | true =>
    have := h.loc x hl hx
    unfold LocOk at this
    cases hσ : σ x with
    | some v => rw [hσ] at this; simp [this.1, this.2]
    | none =>
      rw [hσ] at this
      rcases this.2 with h2 | h2 <;> simp [h2, this.1]
  | false =>
    have := h.par x hl hx
    rw [this]
    cases env (.user x) <;> simp

variable (hleak : ∀ f vs U v l, I.op f vs U = some (v, l) → ∀ x ∈ l, isLocal x = false)

def Res1 (isLocal : Nat → Bool) (D : List Nat) {α : Type} (py : Option α) (vi : Option (α × List Nat)) : Prop :=
  match py with
  | some v => ∃ D', DEq isLocal D D' ∧ vi = some (v, D')
  | none => vi = none

include hleak in
mutual
theorem evalE_sim {U : List Val} {σ : Env} {look : List Nat → Nat → Option Val} : ∀ (e : Expr) (D : List Nat),
    (∀ D', DEq isLocal D D' → ∀ x ∈ reads e, look D' x = σ x) →
    Res1 isLocal D (evalPy (strict I) U σ e) (evalE I U look D e)
  | .lit v, D, h => ⟨D, DEq.rfl, by simp [evalE]⟩
  | .var x, D, h => by
      simp only [evalPy, evalE, h D DEq.rfl x (by simp [reads])]
      cases hσ : σ x with
      | some v => exact ⟨D, DEq.rfl, rfl⟩
      | none => rfl
  | .op f es, D, h => by
      have hs := evalEs_sim (U := U) (σ := σ) (look := look) es D h
      simp only [evalPy, evalE]
      cases hp : evalPys (strict I) U σ es with
      | none => rw [hp] at hs; simp only [Res1] at hs; rw [hs]; rfl
      | some vs =>
        rw [hp] at hs
        obtain ⟨D', hd, hv⟩ := hs
        rw [hv]
        simp only [Option.bind_some, strict]
        cases ho : I.op f vs U with
        | none => rfl
        | some r =>
          refine ⟨D' ++ r.2, hd.trans (fun x hx => ?_), rfl⟩
          have := hleak f vs U r.1 r.2 ho
          constructor
          · intro hm
            rcases List.mem_append.1 hm with hm | hm
            · exact hm
            · rw [this x hm] at hx; cases hx
          · exact fun hm => List.mem_append_left _ hm
theorem evalEs_sim {U : List Val} {σ : Env} {look : List Nat → Nat → Option Val} : ∀ (es : List Expr) (D : List Nat),
    (∀ D', DEq isLocal D D' → ∀ x ∈ readsL es, look D' x = σ x) →
    Res1 isLocal D (evalPys (strict I) U σ es) (evalEs I U look D es)
  | [], D, h => ⟨D, DEq.rfl, by simp [evalEs]⟩
  | e :: es, D, h => by
      have h1 := evalE_sim (U := U) (σ := σ) (look := look) e D (fun D' hd x hx => h D' hd x (by simp [readsL, hx]))
      simp only [evalPys, evalEs]
      cases hp : evalPy (strict I) U σ e with
      | none => rw [hp] at h1; simp only [Res1] at h1; rw [h1]; rfl
      | some v =>
        rw [hp] at h1
        obtain ⟨D1, hd1, hv1⟩ := h1
        rw [hv1]
        have h2 := evalEs_sim (U := U) (σ := σ) (look := look) es D1 (fun D' hd x hx => h D' (hd1.trans hd) x (by simp [readsL, hx]))
        simp only [Option.bind_some]
        cases hp2 : evalPys (strict I) U σ es with
        | none => rw [hp2] at h2; simp only [Res1] at h2; rw [h2]; rfl
        | some vs =>
          rw [hp2] at h2
          obtain ⟨D2, hd2, hv2⟩ := h2
          rw [hv2]
          exact ⟨D2, hd1.trans hd2, rfl⟩
end

include hleak in
theorem Inv.eval {F : Flow} {σ : Env} {env : KEnv} {D : List Nat} (h : Inv isLocal args F σ env D) {U : List Val} {e : Expr}
    (hf : free F.H (reads e) = true) :
    Res1 isLocal D (evalPy (strict I) U σ e) (evalE I U (lookEnv isLocal args env) D e) := by
  refine evalE_sim hleak e D (fun D' hd x hx => (h.deq hd).look ?_)
  simp only [free, List.all_eq_true] at hf
  have := hf x hx
  simpa using this

/-- What running the wrappers of a statement has to do with running the statement. -/
def Sim (I : Interp) (isLocal : Nat → Bool) (args : Nat → Val) (n : Nat) (F' : Flow) (env : KEnv) (rest : List Wrapper)
    (r : Res) (lhs : Option (Val × List Nat)) : Prop :=
  match r with
  | .norm σ' U' => ∃ env' D', Inv isLocal args F' σ' env' D' ∧ Keep n env env' ∧ lhs = runW I isLocal args U' env' D' rest
  | .ret v => ∃ D', lhs = some (v, D')
  | .err => lhs = none

theorem Sim.keep {n m : Nat} {F' F'' : Flow} {env env' : KEnv} {rest : List Wrapper} {r : Res} {lhs : Option (Val × List Nat)}
    (h : Sim I isLocal args m F' env' rest r lhs) (hk : Keep n env env') (hnm : n ≤ m)
    (hA : ∀ x ∈ F''.A, x ∈ F'.A) (hH : ∀ x ∈ F'.H, x ∈ F''.H) :
    Sim I isLocal args n F'' env rest r lhs := by
  cases r with
  | norm σ' U' =>
    obtain ⟨e, D, h1, h2, h3⟩ := h
    exact ⟨e, D, h1.weaken hA hH, hk.trans h2 hnm, h3⟩
  | ret v => exact h
  | err => exact h

def thenR (r : Res) (k : Env → List Val → Res) : Res :=
  match r with
  | .norm σ' U' => k σ' U'
  | r => r

/-- Continues after a statement that ended normally. -/
theorem Sim.andThen {n m : Nat} {F1 F2 : Flow} {env : KEnv} {rest1 rest2 : List Wrapper} {r : Res} {lhs : Option (Val × List Nat)}
    {k : Env → List Val → Res}
    (h : Sim I isLocal args n F1 env rest1 r lhs)
    (hn : ∀ σ' U' env' D', Inv isLocal args F1 σ' env' D' → Keep n env env' →
      Sim I isLocal args n F2 env rest2 (k σ' U') (runW I isLocal args U' env' D' rest1)) :
    Sim I isLocal args n F2 env rest2 (thenR r k) lhs := by
  cases r with
  | norm σ' U' =>
    obtain ⟨e, D, h1, h2, h3⟩ := h
    rw [h3]
    exact hn σ' U' e D h1 h2
  | ret v => exact h
  | err => exact h

theorem matchPat_plain (v : Val) : ∀ (p : Pat) (σ : Env), p.plain = true →
    matchPat (strict I) v p σ =
      if patTest I v p then some (fun x => if x ∈ binds p then some v else σ x) else none
  | .leaf k, σ, h => by
      have h1 : (strict I).leaf k v = I.leaf k v := rfl
      cases hk : I.leaf k v <;> simp [matchPat, patTest, binds, h1, hk]
  | .wild, σ, h => by simp [matchPat, patTest, binds]
  | .capture x, σ, h => by
      simp only [matchPat, patTest, binds, if_true, List.mem_singleton]
      rfl
  | .as p x, σ, h => by
      have h1 : patTest I v (p.as x) = patTest I v p := rfl
      rw [matchPat, matchPat_plain v p σ h, h1]
      cases hk : patTest I v p with
      | false => rfl
      | true =>
        simp only [if_true, Option.map_some, Option.some.injEq]
        funext y
        by_cases hy : y = x <;> simp [Env.set, hy, binds]
  | .or p q, σ, h => by
      simp only [Pat.plain, Bool.and_eq_true, List.isEmpty_iff] at h
      have hp : p.plain = true := by
        cases p <;> simp_all [Pat.plain, binds]
      have hq : q.plain = true := by
        cases q <;> simp_all [Pat.plain, binds]
      simp only [matchPat, patTest, binds, matchPat_plain v p σ hp, matchPat_plain v q σ hq, h.1, h.2]
      cases patTest I v p <;> cases patTest I v q <;> simp

/-- Binding all captured names. -/
theorem run_caps {n : Nat} {conds : List Cond} {subj : Nat} (hc : CondsLt n conds) (hsn : subj < n) {v : Val} {U : List Val}
    {rest : List Wrapper} : ∀ (caps : List Nat) (F : Flow) (σ : Env) (env : KEnv) (D : List Nat),
    Inv isLocal args F σ env D → env (.tmp subj) = some v → evalConds env conds = some true →
    ∃ env' D', Inv isLocal args ⟨F.A, F.H.filter fun x => !caps.contains x⟩
        (fun x => if x ∈ caps then some v else σ x) env' D' ∧ Keep n env env' ∧
      runW I isLocal args U env D (caps.map (fun x => .assign (.user x) false conds (.subj subj)) ++ rest) =
        runW I isLocal args U env' D' rest := by
  intro caps
  induction caps with
  | nil =>
    intro F σ env D h _ _
    refine ⟨env, D, h.weaken (fun x hx => hx) (fun x hx => ?_) , Keep.rfl, rfl⟩
    simpa using hx
  | cons x xs ih =>
    intro F σ env D h hv he
    have hk : Keep n env (upd env (.user x) v) := keep_user
    obtain ⟨env', D', h1, h2, h3⟩ := ih ⟨F.A, F.H.filter (· ≠ x)⟩ (σ.set x v) _ (D ++ [x])
      (h.set x v (F' := ⟨F.A, F.H.filter (· ≠ x)⟩) (fun y hy => .inr hy)
        (fun y hy hne => by simpa [hne] using hy))
      (by rw [hk _ hsn]; exact hv) ((evalConds_keep hk hc).trans he)
    refine ⟨env', D', ?_, hk.trans h2 (Nat.le_refl _), ?_⟩
    · have : (fun y => if y ∈ x :: xs then some v else σ y) = (fun y => if y ∈ xs then some v else (σ.set x v) y) := by
        funext y
        by_cases hy : y ∈ xs
        · simp [hy]
        · by_cases hyx : y = x <;> simp [hy, hyx, Env.set]
      rw [this]
      refine h1.weaken (fun y hy => hy) (fun y hy => ?_)
      simp only [List.mem_filter, Bool.not_eq_true', List.contains_eq_mem, decide_eq_false_iff_not, List.mem_cons,
        not_or, decide_eq_true_eq, ne_eq] at hy ⊢
      exact ⟨hy.1.1, hy.1.2, hy.2⟩
    · rw [List.map_cons, List.cons_append, runW, he]
      simp only [Option.bind_some, if_true, evalRhs, hv, Option.map_some, defd]
      exact h3

theorem cond_tmp {env : KEnv} {conds : List Cond} {n : Nat} {c : Bool} (he : evalConds env conds = some true)
    (hv : env (.tmp n) = some (.bool c)) :
    evalConds env (conds ++ [.pos n]) = some c ∧ evalConds env (conds ++ [.neg n]) = some (!c) := by
  simp [evalConds_append, he, condVal, hv, unbox]

theorem thenR_block (U : List Val) (σ : Env) (s : Stmt) (b : Block) :
    execBlock (strict I) U σ (.cons s b) =
      thenR (execStmt (strict I) U σ s) (fun σ' U' => execBlock (strict I) U' σ' b) := by
  simp only [execBlock, thenR]
  cases execStmt (strict I) U σ s <;> rfl

include hleak in
mutual
theorem runStmt : ∀ (s : Stmt) (top : Bool) (n : Nat) (conds : List Cond) (F F' : Flow) (σ : Env) (env : KEnv) (D : List Nat)
    (U : List Val) (rest : List Wrapper), okStmt isLocal top F s = some F' → Inv isLocal args F σ env D → CondsLt n conds →
    evalConds env conds = some true →
    Sim I isLocal args n F' env rest (execStmt (strict I) U σ s)
      (runW I isLocal args U env D ((wrapStmt n conds s).1 ++ rest))
  | .assign x e, top, n, conds, F, F', σ, env, D, U, rest, ho, hI, hc, he => by
      simp only [okStmt] at ho
      split at ho
      · rename_i h
        cases ho
        simp only [Bool.and_eq_true] at h
        have h1 := hI.eval (I := I) hleak (U := U) h.1
        simp only [wrapStmt, List.cons_append, List.nil_append, runW, he, Option.bind_some, if_true, evalRhs,
          Bool.false_eq_true, if_false, execStmt]
        cases hp : evalPy (strict I) U σ e with
        | none => rw [hp] at h1; simp only [Res1] at h1; rw [h1]; rfl
        | some v =>
          rw [hp] at h1
          obtain ⟨D', hd, hv⟩ := h1
          rw [hv]
          refine ⟨_, _, (hI.deq hd).set x v ?_ ?_, keep_user, rfl⟩
          · intro y hy
            cases top
            · exact .inr (by simpa using hy)
            · simpa using hy
          · intro y hy hne
            simpa [hne] using hy
      · cases ho
  | .aug x o e, top, n, conds, F, F', σ, env, D, U, rest, ho, hI, hc, he => by
      simp only [okStmt] at ho
      split at ho
      · rename_i h
        cases ho
        simp only [Bool.and_eq_true, free, List.all_cons, Bool.or_eq_true, List.contains_iff_mem] at h
        have h1 := hI.eval (I := I) hleak (U := U) (e := e) h.1.2
        have hxH : x ∉ F.H := by simpa using h.1.1
        simp only [wrapStmt, List.cons_append, List.nil_append, runW, he, Option.bind_some, if_true, evalRhs, execStmt]
        have hval : ∀ a, σ x = some a → env (.user x) = some a := by
          intro a ha
          cases hl : isLocal x with
          | true => have := hI.loc x hl hxH; rw [ha] at this; exact this.1
          | false =>
            have h2 := hI.par x hl hxH
            have h3 := hI.ali x (h.2.resolve_left (by simp [hl]))
            rw [ha] at h2
            cases hen : env (.user x) with
            | none => exact absurd hen h3
            | some w => rw [hen] at h2; exact h2.symm
        cases hσ : σ x with
        | none =>
          have hl : isLocal x = true := by
            cases hl : isLocal x with
            | true => rfl
            | false => rw [hI.par x hl hxH] at hσ; cases hσ
          have := hI.loc x hl hxH
          rw [hσ] at this
          rcases this.2 with h2 | h2
          · rw [h2]; rfl
          · rw [h2]
            have ha : ∀ b, arith o .none b = none := fun b => by simp [arith, toInt]
            simp only [Option.bind_some, ha, Option.map_none]
            cases evalE I U (lookEnv isLocal args env) D e <;> rfl
        | some a =>
          rw [hval a hσ]
          cases hp : evalPy (strict I) U σ e with
          | none => rw [hp] at h1; simp only [Res1] at h1; simp only [h1]; rfl
          | some b =>
            rw [hp] at h1
            obtain ⟨D', hd, hv⟩ := h1
            simp only [hv, Option.bind_some, strict]
            cases ha : arith o a b with
            | none => rfl
            | some v =>
              exact ⟨_, _, (hI.deq hd).set x v (fun y hy => .inr hy) (fun y hy _ => hy), keep_user, rfl⟩
      · cases ho
  | .ite t th el, top, n, conds, F, F', σ, env, D, U, rest, ho, hI, hc, he => by
      simp only [okStmt] at ho
      split at ho
      · rename_i hf
        simp only [Option.bind_eq_some_iff, Option.map_eq_some_iff] at ho
        obtain ⟨F1, ho1, F2, ho2, rfl⟩ := ho
        have h1 := hI.eval (I := I) hleak (U := U) hf
        rw [wrapStmt, List.cons_append, runW, he]
        simp only [Option.bind_some, if_true, evalRhs, List.append_assoc, execStmt]
        cases hp : evalPy (strict I) U σ t with
        | none => rw [hp] at h1; simp only [Res1] at h1; rw [h1]; rfl
        | some w =>
          rw [hp] at h1
          obtain ⟨D', hd, hv⟩ := h1
          simp only [hv, Option.bind_some, strict]
          cases hb : unbox w with
          | none => rfl
          | some c =>
            simp only [Option.map_some, Option.bind_some, defd]
            have hI1 := (hI.deq hd).tmp n (.bool c)
            have hk1 : Keep n env (upd env (.tmp n) (.bool c)) := keep_tmp
            have he1 := (evalConds_keep hk1 hc).trans he
            have hcc := cond_tmp (c := c) (n := n) he1 (by simp [upd])
            have hle := wrapBlock_le th (n + 1) (conds ++ [.pos n])
            have hA1 := okBlock_A th F F1 ho1
            have hA2 := okBlock_A el F F2 ho2
            cases c with
            | true =>
              have ih := runBlock th false (n + 1) (conds ++ [.pos n]) F F1 σ _ D' U
                ((wrapBlock (wrapBlock (n + 1) (conds ++ [.pos n]) th).2 (conds ++ [.neg n]) el).1 ++ rest) ho1 hI1
                (condsLt_append hc rfl) hcc.1
              change Sim I isLocal args n _ env rest (execBlock (strict I) U σ th) _
              cases hr : execBlock (strict I) U σ th with
              | ret v => rw [hr] at ih; exact ih
              | err => rw [hr] at ih; exact ih
              | norm σ' U' =>
                rw [hr] at ih
                obtain ⟨env2, D2, hI2, hk2, hrun⟩ := ih
                obtain ⟨env3, hs3, hrun3⟩ := skipBlock (I := I) (isLocal := isLocal) (args := args) el
                  (wrapBlock (n + 1) (conds ++ [.pos n]) th).2 (conds ++ [.neg n]) F F2 env2 D2 U' rest ho2
                  (by rw [← hA1]; exact hI2.ali) ((condsLt_append hc rfl).le hle)
                  ((evalConds_keep hk2 (condsLt_append hc rfl)).trans hcc.2)
                refine ⟨env3, D2, (hI2.skip hs3).weaken (fun x hx => by rw [hA1]; exact hx)
                  (fun x hx => List.mem_append_left _ hx), hk1.trans (hk2.trans hs3.keep hle) (Nat.le_succ n), ?_⟩
                rw [hrun, hrun3]
            | false =>
              obtain ⟨env2, hs2, hrun2⟩ := skipBlock (I := I) (isLocal := isLocal) (args := args) th
                (n + 1) (conds ++ [.pos n]) F F1 _ D' U
                ((wrapBlock (wrapBlock (n + 1) (conds ++ [.pos n]) th).2 (conds ++ [.neg n]) el).1 ++ rest) ho1
                hI1.ali (condsLt_append hc rfl) hcc.1
              rw [hrun2]
              have ih := runBlock el false (wrapBlock (n + 1) (conds ++ [.pos n]) th).2 (conds ++ [.neg n]) F F2 σ _ D' U
                rest ho2 (hI1.skip hs2) ((condsLt_append hc rfl).le hle)
                ((evalConds_keep hs2.keep (condsLt_append hc rfl)).trans hcc.2)
              exact ih.keep (hk1.trans hs2.keep (Nat.le_succ n)) (Nat.le_trans (Nat.le_succ n) hle)
                (fun x hx => by rw [hA2]; exact hx) (fun x hx => List.mem_append_right _ hx)
      · cases ho
  | .ret e, top, n, conds, F, F', σ, env, D, U, rest, ho, hI, hc, he => by
      simp only [okStmt] at ho
      split at ho
      · rename_i hf
        have h1 := hI.eval (I := I) hleak (U := U) hf
        simp only [wrapStmt, List.cons_append, List.nil_append, runW, he, Option.bind_some, if_true, execStmt]
        cases hp : evalPy (strict I) U σ e with
        | none => rw [hp] at h1; simp only [Res1] at h1; rw [h1]; rfl
        | some v =>
          rw [hp] at h1
          obtain ⟨D', hd, hv⟩ := h1
          exact ⟨D', hv⟩
      · cases ho
  | .assert e, top, n, conds, F, F', σ, env, D, U, rest, ho, hI, hc, he => by
      simp only [okStmt] at ho
      split at ho
      · rename_i hf
        cases ho
        have h1 := hI.eval (I := I) hleak (U := U) hf
        simp only [wrapStmt, List.cons_append, List.nil_append, runW, he, Option.bind_some, if_true, execStmt]
        cases hp : evalPy (strict I) U σ e with
        | none => rw [hp] at h1; simp only [Res1] at h1; rw [h1]; rfl
        | some v =>
          rw [hp] at h1
          obtain ⟨D', hd, hv⟩ := h1
          rw [hv]
          simp only [Option.bind_some, strict]
          cases ht : I.truth v with
          | none => rfl
          | some b =>
            cases b with
            | false => simp [Sim]
            | true => simpa [Sim] using ⟨_, _, hI.deq hd, Keep.rfl, rfl⟩
      · cases ho
  | .unfold e, top, n, conds, F, F', σ, env, D, U, rest, ho, hI, hc, he => by
      simp only [okStmt] at ho
      split at ho
      · rename_i hf
        cases ho
        have h1 := hI.eval (I := I) hleak (U := U) hf
        simp only [wrapStmt, List.cons_append, List.nil_append, runW, he, Option.bind_some, if_true, execStmt]
        cases hp : evalPy (strict I) U σ e with
        | none => rw [hp] at h1; simp only [Res1] at h1; rw [h1]; rfl
        | some v =>
          rw [hp] at h1
          obtain ⟨D', hd, hv⟩ := h1
          rw [hv]
          have hh : (strict I).held v = I.held v := rfl
          simp only [Option.bind_some, hh]
          cases ht : I.held v with
          | false => simp [Sim]
          | true => simpa [Sim] using ⟨_, _, hI.deq hd, Keep.rfl, rfl⟩
      · cases ho
  | .mtch e cs, top, n, conds, F, F', σ, env, D, U, rest, ho, hI, hc, he => by
      simp only [okStmt] at ho
      split at ho
      · rename_i hf
        have h1 := hI.eval (I := I) hleak (U := U) hf
        rw [wrapStmt, List.cons_append, runW, he]
        simp only [Option.bind_some, if_true, evalRhs, Bool.false_eq_true, if_false, execStmt]
        cases hp : evalPy (strict I) U σ e with
        | none => rw [hp] at h1; simp only [Res1] at h1; rw [h1]; rfl
        | some v =>
          rw [hp] at h1
          obtain ⟨D', hd, hv⟩ := h1
          rw [hv]
          simp only [Option.bind_some, defd]
          have hk1 : Keep n env (upd env (.tmp n) v) := keep_tmp
          have ih := runCases cs (n + 1) n conds F F' σ _ D' U rest v ho ((hI.deq hd).tmp n v) (hc.le (Nat.le_succ n))
            ((evalConds_keep hk1 hc).trans he) (Nat.lt_succ_self n) (by simp [upd])
          exact ih.keep hk1 (Nat.le_succ n) (fun x hx => hx) (fun x hx => hx)
      · cases ho
  | .doc, top, n, conds, F, F', σ, env, D, U, rest, ho, hI, hc, he => by
      simp only [okStmt] at ho
      cases ho
      exact ⟨env, D, hI, Keep.rfl, by simp [wrapStmt]⟩
theorem runBlock : ∀ (b : Block) (top : Bool) (n : Nat) (conds : List Cond) (F F' : Flow) (σ : Env) (env : KEnv) (D : List Nat)
    (U : List Val) (rest : List Wrapper), okBlock isLocal top F b = some F' → Inv isLocal args F σ env D → CondsLt n conds →
    evalConds env conds = some true →
    Sim I isLocal args n F' env rest (execBlock (strict I) U σ b)
      (runW I isLocal args U env D ((wrapBlock n conds b).1 ++ rest))
  | .nil, top, n, conds, F, F', σ, env, D, U, rest, ho, hI, hc, he => by
      simp only [okBlock] at ho
      cases ho
      exact ⟨env, D, hI, Keep.rfl, by simp [wrapBlock]⟩
  | .cons s b, top, n, conds, F, F', σ, env, D, U, rest, ho, hI, hc, he => by
      simp only [okBlock, Option.bind_eq_some_iff] at ho
      obtain ⟨F1, h1, h2⟩ := ho
      have hle := wrapStmt_le s n conds
      have ih1 := runStmt s top n conds F F1 σ env D U ((wrapBlock (wrapStmt n conds s).2 conds b).1 ++ rest) h1 hI hc he
      rw [thenR_block, wrapBlock, List.append_assoc]
      refine ih1.andThen (m := n) (fun σ' U' env' D' hI' hk' => ?_)
      have ih2 := runBlock b top (wrapStmt n conds s).2 conds F1 F' σ' env' D' U' rest h2 hI' (hc.le hle)
        ((evalConds_keep hk' hc).trans he)
      exact ih2.keep hk' hle (fun x hx => hx) (fun x hx => hx)
theorem runCases : ∀ (cs : Cases) (n subj : Nat) (conds : List Cond) (F F' : Flow) (σ : Env) (env : KEnv) (D : List Nat)
    (U : List Val) (rest : List Wrapper) (v : Val), okCases isLocal F cs = some F' → Inv isLocal args F σ env D →
    CondsLt n conds → evalConds env conds = some true → subj < n → env (.tmp subj) = some v →
    Sim I isLocal args n F' env rest (execCases (strict I) U σ v cs)
      (runW I isLocal args U env D ((wrapCases n subj conds cs).1 ++ rest))
  | .nil, n, subj, conds, F, F', σ, env, D, U, rest, v, ho, hI, hc, he, hsn, hsv => by
      simp only [okCases] at ho
      cases ho
      exact ⟨env, D, hI, Keep.rfl, by simp [wrapCases]⟩
  | .cons p g b cs, n, subj, conds, F, F', σ, env, D, U, rest, v, ho, hI, hc, he, hsn, hsv => by
      simp only [okCases] at ho
      split at ho
      · rename_i hcond
        simp only [Bool.and_eq_true, List.all_eq_true, Bool.or_eq_true, List.contains_iff_mem] at hcond
        simp only [Option.bind_eq_some_iff, Option.map_eq_some_iff] at ho
        obtain ⟨F1, h1, F2, h2, rfl⟩ := ho
        have hcb := captures_binds p hcond.1.1
        have hA1 := okBlock_A b _ F1 h1
        have hA2 := okCases_A cs _ F2 h2
        have hle := wrapBlock_le b (n + 1) (conds ++ [.pos n])
        have hcl : ∀ {c : Cond}, c.idx = n → CondsLt (n + 1) (conds ++ [c]) := fun h => condsLt_append hc h
        simp only at hA1 hA2
        -- the case is taken
        have take : ∀ (D' : List Nat), DEq isLocal D D' →
            Sim I isLocal args n ⟨F.A, F1.H ++ F2.H⟩ env rest
              (execBlock (strict I) U (fun x => if x ∈ binds p then some v else σ x) b)
              (runW I isLocal args U (upd env (.tmp n) (.bool true)) D'
                ((captures p).map (fun x => .assign (.user x) false (conds ++ [.pos n]) (.subj subj)) ++
                  ((wrapBlock (n + 1) (conds ++ [.pos n]) b).1 ++
                    ((wrapCases (wrapBlock (n + 1) (conds ++ [.pos n]) b).2 subj (conds ++ [.neg n]) cs).1 ++ rest)))) := by
          intro D' hd
          have hk1 : Keep n env (upd env (.tmp n) (.bool true)) := keep_tmp
          have hI1 := (hI.deq hd).tmp n (.bool true)
          have hcc := cond_tmp (c := true) (n := n) ((evalConds_keep hk1 hc).trans he) (by simp [upd])
          obtain ⟨env2, D2, hI2, hk2, hr2⟩ := run_caps (I := I) (isLocal := isLocal) (args := args) (n := n + 1)
            (conds := conds ++ [.pos n]) (subj := subj) (hcl rfl) (Nat.lt_succ_of_lt hsn) (v := v) (U := U)
            (rest := (wrapBlock (n + 1) (conds ++ [.pos n]) b).1 ++
              ((wrapCases (wrapBlock (n + 1) (conds ++ [.pos n]) b).2 subj (conds ++ [.neg n]) cs).1 ++ rest))
            (captures p) F σ _ D' hI1 (by rw [hk1 _ hsn]; exact hsv) hcc.1
          rw [hr2]
          rw [hcb] at hI2
          have ih := runBlock b false (n + 1) (conds ++ [.pos n]) _ F1 _ env2 D2 U
            ((wrapCases (wrapBlock (n + 1) (conds ++ [.pos n]) b).2 subj (conds ++ [.neg n]) cs).1 ++ rest) h1 hI2
            (hcl rfl) ((evalConds_keep hk2 (hcl rfl)).trans hcc.1)
          cases hr : execBlock (strict I) U (fun x => if x ∈ binds p then some v else σ x) b with
          | ret v => rw [hr] at ih; exact ih
          | err => rw [hr] at ih; exact ih
          | norm σ' U' =>
            rw [hr] at ih
            obtain ⟨env3, D3, hI3, hk3, hrun⟩ := ih
            obtain ⟨env4, hs4, hrun4⟩ := skipCases (I := I) (isLocal := isLocal) (args := args) cs
              (wrapBlock (n + 1) (conds ++ [.pos n]) b).2 subj (conds ++ [.neg n]) _ F2 env3 D3 U' rest h2
              (by simp only; rw [← hA1]; exact hI3.ali) ((hcl rfl).le hle)
              ((evalConds_keep hk3 (hcl rfl)).trans ((evalConds_keep hk2 (hcl rfl)).trans hcc.2))
            refine ⟨env4, D3, (hI3.skip hs4).weaken (fun x hx => by rw [hA1]; exact hx)
              (fun x hx => List.mem_append_left _ hx),
              hk1.trans (hk2.trans (hk3.trans hs4.keep hle) (Nat.le_refl _)) (Nat.le_succ n), ?_⟩
            rw [hrun, hrun4]
        -- the case is not taken
        have next : ∀ (D' : List Nat) (σ' : Env), DEq isLocal D D' →
            Inv isLocal args ⟨F.A, if g.isSome then F.H ++ binds p else F.H⟩ σ' env D' →
            Sim I isLocal args n ⟨F.A, F1.H ++ F2.H⟩ env rest
              (execCases (strict I) U σ' v cs)
              (runW I isLocal args U (upd env (.tmp n) (.bool false)) D'
                ((captures p).map (fun x => .assign (.user x) false (conds ++ [.pos n]) (.subj subj)) ++
                  ((wrapBlock (n + 1) (conds ++ [.pos n]) b).1 ++
                    ((wrapCases (wrapBlock (n + 1) (conds ++ [.pos n]) b).2 subj (conds ++ [.neg n]) cs).1 ++ rest)))) := by
          intro D' σ' hd hI'
          have hk1 : Keep n env (upd env (.tmp n) (.bool false)) := keep_tmp
          have hI1 := hI'.tmp n (.bool false)
          have hcc := cond_tmp (c := false) (n := n) ((evalConds_keep hk1 hc).trans he) (by simp [upd])
          obtain ⟨env2, hs2, hr2⟩ := skip_caps (I := I) (isLocal := isLocal) (args := args) (n := n + 1)
            (conds := conds ++ [.pos n]) (subj := subj) (hcl rfl) (U := U) (D := D')
            (rest := (wrapBlock (n + 1) (conds ++ [.pos n]) b).1 ++
              ((wrapCases (wrapBlock (n + 1) (conds ++ [.pos n]) b).2 subj (conds ++ [.neg n]) cs).1 ++ rest))
            (A := F.A) (captures p) _ hI1.ali (by rw [hcb]; exact hcond.1.2) hcc.1
          obtain ⟨env3, hs3, hr3⟩ := skipBlock (I := I) (isLocal := isLocal) (args := args) b (n + 1) (conds ++ [.pos n]) _ F1
            env2 D' U ((wrapCases (wrapBlock (n + 1) (conds ++ [.pos n]) b).2 subj (conds ++ [.neg n]) cs).1 ++ rest) h1
            (hs2.alias hI1.ali) (hcl rfl) ((evalConds_keep hs2.keep (hcl rfl)).trans hcc.1)
          have hk3 : Keep n env env3 := hk1.trans (hs2.keep.trans hs3.keep (Nat.le_refl _)) (Nat.le_succ n)
          have ih := runCases cs (wrapBlock (n + 1) (conds ++ [.pos n]) b).2 subj (conds ++ [.neg n]) _ F2 σ' env3 D' U rest v
            h2 ((hI1.skip hs2).skip hs3) ((hcl rfl).le hle)
            ((evalConds_keep hs3.keep (hcl rfl)).trans ((evalConds_keep hs2.keep (hcl rfl)).trans hcc.2))
            (Nat.lt_of_lt_of_le (Nat.lt_succ_of_lt hsn) hle) (by rw [hk3 _ hsn]; exact hsv)
          rw [hr2, hr3]
          exact ih.keep hk3 (Nat.le_trans (Nat.le_succ n) hle)
            (fun x hx => by rw [hA2]; exact hx) (fun x hx => List.mem_append_right _ hx)
        rw [wrapCases, List.cons_append, runW, he]
        simp only [Option.bind_some, if_true, evalRhs, hsv, List.append_assoc, execCases, matchPat_plain v p σ hcond.1.1]
        cases hpt : patTest I v p with
        | false =>
          have hH : Inv isLocal args ⟨F.A, if g.isSome then F.H ++ binds p else F.H⟩ σ env D :=
            hI.weaken (fun x hx => hx) (fun x hx => by
              cases g
              · exact hx
              · exact List.mem_append_left _ hx)
          cases g with
          | none => simpa [defd] using next D σ DEq.rfl hH
          | some g => simpa [defd] using next D σ DEq.rfl hH
        | true =>
          cases g with
          | none => simpa [defd] using take D DEq.rfl
          | some g =>
            have hg : Res1 isLocal D (evalPy (strict I) U (fun x => if x ∈ binds p then some v else σ x) g)
                (evalE I U (lookG isLocal args env (captures p) v) D g) := by
              refine evalE_sim hleak g D (fun D' hd x hx => ?_)
              have hfr := hcond.2
              simp only [guardFree, free, List.all_eq_true] at hfr
              have hx' := hfr x hx
              unfold lookG
              rw [hcb]
              by_cases hxb : x ∈ binds p
              · simp [hxb]
              · rw [if_neg hxb, if_neg hxb]
                refine (hI.deq hd).look (fun hxH => ?_)
                have : x ∈ F.H.filter fun x => !(binds p).contains x := by simp [hxH, hxb]
                rw [List.contains_iff_mem.2 this] at hx'
                cases hx'
            simp only [Option.isSome_some, if_true]
            cases hp : evalPy (strict I) U (fun x => if x ∈ binds p then some v else σ x) g with
            | none => rw [hp] at hg; simp only [Res1] at hg; rw [hg]; rfl
            | some w =>
              rw [hp] at hg
              obtain ⟨D', hd, hv⟩ := hg
              simp only [hv, Option.bind_some]
              change Sim _ _ _ _ _ _ _ (match I.truth w with | some true => _ | some false => _ | none => _) _
              cases ht : I.truth w with
              | none => rfl
              | some c =>
                cases c with
                | true => simpa [defd] using take D' hd
                | false =>
                  simp only [Option.map_some, Option.bind_some, defd]
                  refine next D' _ hd ⟨hI.ali, fun x hx hh => ?_, fun x hx hh => ?_⟩
                  · simp only [Option.isSome_some, if_true, List.mem_append, not_or] at hh
                    simp only [if_neg hh.2]
                    exact (hI.deq hd).loc x hx hh.1
                  · simp only [Option.isSome_some, if_true, List.mem_append, not_or] at hh
                    simp only [if_neg hh.2]
                    exact (hI.deq hd).par x hx hh.1
      · cases ho
end

end Stage2

/-! ### The whole body -/

mutual
theorem subjStmt : ∀ (s : Stmt) (n : Nat) (conds : List Cond) (S : Nat → Bool) (rest : List Wrapper),
    (∀ S' : Nat → Bool, (∀ t, S t = true → S' t = true) → SubjOk S' rest) → SubjOk S ((wrapStmt n conds s).1 ++ rest)
  | .assign _ _, n, conds, S, rest, h => ⟨by intros; simp_all, h _ (by simp +contextual)⟩
  | .aug _ _ _, n, conds, S, rest, h => ⟨by intros; simp_all, h _ (by simp +contextual)⟩
  | .ite t th el, n, conds, S, rest, h => by
      rw [wrapStmt, List.cons_append, List.append_assoc]
      refine ⟨by intros; simp_all, subjBlock th _ _ _ _ (fun S1 h1 => subjBlock el _ _ _ _ (fun S2 h2 => h S2 ?_))⟩
      intro t ht
      exact h2 t (h1 t (by simp [ht]))
  | .ret _, n, conds, S, rest, h => h S (fun _ ht => ht)
  | .assert _, n, conds, S, rest, h => h S (fun _ ht => ht)
  | .unfold _, n, conds, S, rest, h => h S (fun _ ht => ht)
  | .mtch e cs, n, conds, S, rest, h => by
      rw [wrapStmt, List.cons_append]
      refine ⟨by intros; simp_all, subjCases cs _ _ _ _ _ (by simp) (fun S1 h1 => h S1 ?_)⟩
      intro t ht
      exact h1 t (by simp [ht])
  | .doc, n, conds, S, rest, h => h S (fun _ ht => ht)
theorem subjBlock : ∀ (b : Block) (n : Nat) (conds : List Cond) (S : Nat → Bool) (rest : List Wrapper),
    (∀ S' : Nat → Bool, (∀ t, S t = true → S' t = true) → SubjOk S' rest) → SubjOk S ((wrapBlock n conds b).1 ++ rest)
  | .nil, n, conds, S, rest, h => h S (fun _ ht => ht)
  | .cons s b, n, conds, S, rest, h => by
      rw [wrapBlock, List.append_assoc]
      exact subjStmt s _ _ _ _ (fun S1 h1 => subjBlock b _ _ _ _ (fun S2 h2 => h S2 (fun t ht => h2 t (h1 t ht))))
theorem subjCases : ∀ (cs : Cases) (n subj : Nat) (conds : List Cond) (S : Nat → Bool) (rest : List Wrapper),
    S subj = true → (∀ S' : Nat → Bool, (∀ t, S t = true → S' t = true) → SubjOk S' rest) →
    SubjOk S ((wrapCases n subj conds cs).1 ++ rest)
  | .nil, n, subj, conds, S, rest, hs, h => h S (fun _ ht => ht)
  | .cons p g b cs, n, subj, conds, S, rest, hs, h => by
      rw [wrapCases, List.cons_append, List.append_assoc, List.append_assoc]
      refine ⟨by intro s p' g' al hh; cases hh; exact hs, ?_⟩
      have hcaps : ∀ (caps : List Nat) (S1 : Nat → Bool) (rest' : List Wrapper),
          (∀ S' : Nat → Bool, (∀ t, S1 t = true → S' t = true) → SubjOk S' rest') →
          SubjOk S1 (caps.map (fun x => .assign (.user x) false (conds ++ [.pos n]) (.subj subj)) ++ rest') := by
        intro caps
        induction caps with
        | nil => intro S1 rest' h'; exact h' S1 (fun _ ht => ht)
        | cons x xs ih =>
          intro S1 rest' h'
          refine ⟨by intros; simp_all, ih _ _ (fun S2 h2 => h' S2 (fun t ht => h2 t (by simp [ht])))⟩
      refine hcaps _ _ _ (fun S1 h1 => subjBlock b _ _ _ _ (fun S2 h2 => subjCases cs _ _ _ _ _ ?_ (fun S3 h3 => h S3 ?_)))
      · exact h2 _ (h1 _ (by simp [hs]))
      · intro t ht
        exact h3 t (h2 t (h1 t (by simp [ht])))
end

theorem call_exact {I : Interp} {isLocal : Nat → Bool} (args : Nat → Val) {b : Block} {ve : VExpr}
    (hleak : ∀ f vs U v l, I.op f vs U = some (v, l) → ∀ x ∈ l, isLocal x = false)
    (ht : translate isLocal b = .ok (some ve)) (hok : Ok isLocal b) :
    (call I args ve).map Prod.fst =
      returned (execBlock (strict I) [] (fun x => if isLocal x then none else some (args x)) b) := by
  have h1 : call I args ve = runW I isLocal args [] (fun _ => none) [] (wrapBlock 0 [] b).1 := by
    refine eval_trWrappers _ 0 _ ve [] _ (fun _ => none) [] (fun _ => false) ht (fun k => .inl ⟨rfl, rfl⟩)
      (by simp) (by simp) ?_
    have := subjBlock b 0 [] (fun _ => false) [] (fun _ _ => trivial)
    simpa using this
  obtain ⟨F', hF⟩ := Option.isSome_iff_exists.1 hok
  have hinv : Inv isLocal args ⟨[], []⟩ (fun x => if isLocal x then none else some (args x)) (fun _ => none) [] := by
    refine ⟨by simp, fun x hx _ => ?_, fun x hx _ => ?_⟩
    · simp [hx, LocOk]
    · simp [hx]
  have h2 := runBlock (I := I) (isLocal := isLocal) (args := args) hleak b true 0 [] ⟨[], []⟩ F' _ _ [] [] [] hF hinv
    (by intro c hc; cases hc) rfl
  rw [List.append_nil, ← h1] at h2
  cases hr : execBlock (strict I) [] (fun x => if isLocal x then none else some (args x)) b with
  | norm σ' U' =>
    rw [hr] at h2
    obtain ⟨_, _, _, _, h3⟩ := h2
    rw [h3]
    rfl
  | ret v =>
    rw [hr] at h2
    obtain ⟨D, h3⟩ := h2
    rw [h3]
    rfl
  | err => rw [hr] at h2; rw [show call I args ve = none from h2]; rfl

theorem wrap_empty : ∀ (b : Block) (n : Nat), (wrapBlock n [] b).1 = [] ↔ b.empty = true
  | .nil, n => by simp [wrapBlock, Block.empty]
  | .cons s b, n => by
      have ih := wrap_empty b
      cases s <;> simp [wrapBlock, wrapStmt, Block.empty, ih]

/-! ### The verifier's meaning and Python's -/

theorem agrees_strict (I : Interp) : Agrees (strict I) I where
  op := by intro f vs U v l h; simp [strict, h]
  test := by intro b; rfl
  truth := by intro v b h; exact h
  add := by intros; rfl
  sub := by intros; rfl
  mul := by intros; rfl
  bools := by
    intro o a b c d ha hb
    simp only [strict, arith, ha, hb]
    rfl
  leaf := by intros; rfl
  assertOk := rfl
  held := by intro v h; exact h

section Mono
variable {P : Py} {I : Interp} (h : Agrees P I)

include h in
mutual
theorem evalPy_mono {U : List Val} {σ : Env} : ∀ (e : Expr) {v : Val}, evalPy (strict I) U σ e = some v →
    evalPy P U σ e = some v
  | .lit w, v, hv => by simpa [evalPy] using hv
  | .var x, v, hv => by simpa [evalPy] using hv
  | .op f es, v, hv => by
      simp only [evalPy, Option.bind_eq_some_iff] at hv ⊢
      obtain ⟨vs, h1, h2⟩ := hv
      refine ⟨vs, evalPys_mono es h1, ?_⟩
      simp only [strict, Option.map_eq_some_iff] at h2
      obtain ⟨r, hr, rfl⟩ := h2
      exact h.op f vs U r.1 r.2 hr
theorem evalPys_mono {U : List Val} {σ : Env} : ∀ (es : List Expr) {vs : List Val}, evalPys (strict I) U σ es = some vs →
    evalPys P U σ es = some vs
  | [], v, hv => by simpa [evalPys] using hv
  | e :: es, v, hv => by
      simp only [evalPys, Option.bind_eq_some_iff, Option.map_eq_some_iff] at hv ⊢
      obtain ⟨w, h1, ws, h2, h3⟩ := hv
      exact ⟨w, evalPy_mono e h1, ws, evalPys_mono es h2, h3⟩
end

theorem arith_agrees (h : Agrees P I) {o : AugOp} {a b v : Val} (hv : arith o a b = some v) : P.aug o a b = some v := by
  unfold arith at hv
  cases ha : toInt a with
  | none => rw [ha] at hv; cases hv
  | some i =>
    cases hb : toInt b with
    | none => rw [ha, hb] at hv; cases hv
    | some j =>
      rw [ha, hb] at hv
      cases hv
      rw [h.bools o a b i j ha hb]
      cases o
      · exact h.add i j
      · exact h.sub i j
      · exact h.mul i j

theorem matchPat_agrees (h : Agrees P I) (v : Val) : ∀ (p : Pat) (σ : Env), matchPat P v p σ = matchPat (strict I) v p σ
  | .leaf k, σ => by
      have : (strict I).leaf k v = I.leaf k v := rfl
      simp only [matchPat, h.leaf, this]
  | .wild, σ => rfl
  | .capture x, σ => rfl
  | .as p x, σ => by simp only [matchPat, matchPat_agrees h v p σ]
  | .or p q, σ => by simp only [matchPat, matchPat_agrees h v p σ, matchPat_agrees h v q σ]

/-- The first run fails or ends like the second. -/
def LeR (r r' : Res) : Prop := r ≠ .err → r' = r

include h in
mutual
theorem execStmt_mono : ∀ (s : Stmt) (U : List Val) (σ : Env), LeR (execStmt (strict I) U σ s) (execStmt P U σ s)
  | .assign x e, U, σ => by
      intro hne
      simp only [execStmt] at hne ⊢
      cases he : evalPy (strict I) U σ e with
      | none => rw [he] at hne; exact absurd rfl hne
      | some v => rw [evalPy_mono h e he]
  | .aug x o e, U, σ => by
      intro hne
      simp only [execStmt] at hne ⊢
      cases hx : σ x with
      | none => simp [hx] at hne
      | some a =>
        cases he : evalPy (strict I) U σ e with
        | none => rw [hx, he] at hne; exact absurd rfl hne
        | some v =>
          rw [evalPy_mono h e he]
          simp only
          cases ha : arith o a v with
          | none => rw [hx, he] at hne; simp only [strict, ha] at hne; exact absurd rfl hne
          | some w => rw [arith_agrees h ha]; simp [strict, ha]
  | .ite t th el, U, σ => by
      intro hne
      simp only [execStmt] at hne ⊢
      cases ht : evalPy (strict I) U σ t with
      | none => rw [ht] at hne; exact absurd rfl hne
      | some v =>
        rw [ht] at hne
        rw [evalPy_mono h t ht]
        cases v with
        | bool b =>
          have hb : (strict I).test (.bool b) = some b := rfl
          simp only [Option.bind_some, h.test, hb] at hne ⊢
          cases b
          · exact execBlock_mono el U σ hne
          · exact execBlock_mono th U σ hne
        | none => exact absurd rfl hne
        | int i => exact absurd rfl hne
        | obj n => exact absurd rfl hne
  | .ret e, U, σ => by
      intro hne
      simp only [execStmt] at hne ⊢
      cases he : evalPy (strict I) U σ e with
      | none => rw [he] at hne; exact absurd rfl hne
      | some v => rw [evalPy_mono h e he]
  | .assert e, U, σ => by
      intro hne
      simp only [execStmt] at hne ⊢
      cases he : evalPy (strict I) U σ e with
      | none => rw [he] at hne; exact absurd rfl hne
      | some v =>
        rw [he] at hne
        rw [evalPy_mono h e he]
        have hs : (strict I).truth v = I.truth v := rfl
        have ha : ∀ b, (strict I).assertOk b = b := fun b => rfl
        simp only [Option.bind_some, hs, ha] at hne ⊢
        cases ht : I.truth v with
        | none => rw [ht] at hne; exact absurd rfl hne
        | some b =>
          rw [ht] at hne
          rw [h.truth v b ht]
          cases b
          · exact absurd rfl hne
          · simp [h.assertOk]
  | .unfold e, U, σ => by
      intro hne
      simp only [execStmt] at hne ⊢
      cases he : evalPy (strict I) U σ e with
      | none => rw [he] at hne; exact absurd rfl hne
      | some v =>
        rw [he] at hne
        rw [evalPy_mono h e he]
        have hs : (strict I).held v = I.held v := rfl
        simp only [hs] at hne ⊢
        cases ht : I.held v with
        | false => rw [ht] at hne; exact absurd rfl hne
        | true => simp [h.held v ht]
  | .mtch e cs, U, σ => by
      intro hne
      simp only [execStmt] at hne ⊢
      cases he : evalPy (strict I) U σ e with
      | none => rw [he] at hne; exact absurd rfl hne
      | some v =>
        rw [he] at hne
        rw [evalPy_mono h e he]
        exact execCases_mono cs U σ v hne
  | .doc, U, σ => by intro _; simp [execStmt]
theorem execBlock_mono : ∀ (b : Block) (U : List Val) (σ : Env), LeR (execBlock (strict I) U σ b) (execBlock P U σ b)
  | .nil, U, σ => by intro _; simp [execBlock]
  | .cons s b, U, σ => by
      intro hne
      simp only [execBlock] at hne ⊢
      have ih := execStmt_mono s U σ
      cases hs : execStmt (strict I) U σ s with
      | err => rw [hs] at hne; exact absurd rfl hne
      | ret v => rw [hs] at ih; rw [ih (by simp)]
      | norm σ' U' =>
        rw [hs] at ih hne
        rw [ih (by simp)]
        exact execBlock_mono b U' σ' hne
theorem execCases_mono : ∀ (cs : Cases) (U : List Val) (σ : Env) (v : Val),
    LeR (execCases (strict I) U σ v cs) (execCases P U σ v cs)
  | .nil, U, σ, v => by intro _; simp [execCases]
  | .cons p g b cs, U, σ, v => by
      intro hne
      simp only [execCases, matchPat_agrees h v p σ] at hne ⊢
      cases hm : matchPat (strict I) v p σ with
      | none => rw [hm] at hne; exact execCases_mono cs U σ v hne
      | some σ' =>
        rw [hm] at hne
        cases g with
        | none => exact execBlock_mono b U σ' hne
        | some g =>
          simp only at hne ⊢
          cases he : evalPy (strict I) U σ' g with
          | none => rw [he] at hne; exact absurd rfl hne
          | some w =>
            rw [he] at hne
            rw [evalPy_mono h g he]
            have hs : (strict I).truth w = I.truth w := rfl
            simp only [Option.bind_some, hs] at hne ⊢
            cases ht : I.truth w with
            | none => rw [ht] at hne; exact absurd rfl hne
            | some c =>
              rw [ht] at hne
              rw [h.truth w c ht]
              cases c
              · exact execCases_mono cs U σ' v hne
              · exact execBlock_mono b U σ' hne
end

end Mono

end Nagini.Pure
