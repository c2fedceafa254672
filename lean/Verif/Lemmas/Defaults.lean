import Verif.Model.Defaults

/-! Lemmas for C123. -/
set_option linter.unusedVariables false
namespace Nagini.Defaults

theorem mem_writes {cs : List Stmt} {x : Nat} (h : x ∈ writes cs) : ∃ e, Stmt.assign x e ∈ cs := by
  induction cs with
  | nil => cases h
  | cons c cs ih =>
    cases c with
    | assign y e =>
      rcases List.mem_cons.1 h with rfl | h
      · exact ⟨e, List.mem_cons_self ..⟩
      · obtain ⟨e, he⟩ := ih h; exact ⟨e, List.mem_cons_of_mem _ he⟩
    | define f ps => obtain ⟨e, he⟩ := ih h; exact ⟨e, List.mem_cons_of_mem _ he⟩
    | call f args => obtain ⟨e, he⟩ := ih h; exact ⟨e, List.mem_cons_of_mem _ he⟩

theorem paramsOf_none {cs : List Stmt} {f : Nat} (h : ∀ qs, Stmt.define f qs ∉ cs) : paramsOf cs f = none := by
  induction cs with
  | nil => rfl
  | cons c cs ih =>
    have ih' := ih fun qs hq => h qs (List.mem_cons_of_mem _ hq)
    cases c with
    | assign y e => exact ih'
    | define g ps =>
      have : g ≠ f := fun hg => h ps (by simp [hg])
      simpa [paramsOf, this] using ih'
    | call f args => exact ih'

/-- The states of Python and of the encoding agree before executing `rest`. -/
structure Agree (p : List Stmt) (ι : Nat → Int) (rest : List Stmt) (a : PyState) (b : VState) : Prop where
  vars : ∀ x, a.vars x = if x ∈ b.names then some (read (isFinal p) ι b.heap x) else none
  dom : ∀ f, f ∈ b.fnames ↔ a.funs f ≠ none
  funs : ∀ f ds, a.funs f = some ds → ∃ ps, paramsOf p f = some ps ∧ pyDefaults a.vars ps = some ds ∧
    ∀ e, some e ∈ ps → ∀ x ∈ e.reads, x ∉ writes rest
  todo : ∀ f, a.funs f = none → paramsOf p f = paramsOf rest f
  done : ∀ f, a.funs f ≠ none → paramsOf rest f = none

theorem evalMain_eq {fin : Nat → Bool} {ι h : Nat → Int} {names : List Nat} {σ : Nat → Option Int}
    (H : ∀ x, σ x = if x ∈ names then some (read fin ι h x) else none) (e : Exp) :
    evalMain fin ι h names e = pyEval σ e := by
  induction e with
  | lit n => rfl
  | glob x => simp only [evalMain, pyEval, H]
  | add a b iha ihb => simp only [evalMain, pyEval, iha, ihb]; cases pyEval σ a <;> cases pyEval σ b <;> rfl

theorem evalMains_eq {fin : Nat → Bool} {ι h : Nat → Int} {names : List Nat} {σ : Nat → Option Int}
    (H : ∀ x, σ x = if x ∈ names then some (read fin ι h x) else none) (es : List Exp) :
    evalMains fin ι h names es = pyEvals σ es := by
  induction es with
  | nil => rfl
  | cons e es ih =>
    simp only [evalMains, pyEvals, ih, evalMain_eq H]
    cases pyEval σ e <;> cases pyEvals σ es <;> rfl

theorem pyEval_default {fin : Nat → Bool} {ι h : Nat → Int} {names : List Nat} {σ : Nat → Option Int}
    (H : ∀ x, σ x = if x ∈ names then some (read fin ι h x) else none) {e : Exp} {v : Int}
    (he : pyEval σ e = some v) : evalDefault fin ι h e = v := by
  induction e generalizing v with
  | lit n => simpa [pyEval, evalDefault] using he
  | glob x =>
    simp only [pyEval, H] at he
    by_cases hx : x ∈ names
    · simpa [hx, evalDefault] using he
    · simp [hx] at he
  | add a b iha ihb =>
    simp only [pyEval] at he
    cases ha : pyEval σ a with
    | none => simp [ha] at he
    | some u =>
      cases hb : pyEval σ b with
      | none => simp [ha, hb] at he
      | some w =>
        simp only [ha, hb, Option.some.injEq] at he
        simp only [evalDefault, iha ha, ihb hb, he]

theorem bind_eq {fin : Nat → Bool} {ι h : Nat → Int} {names : List Nat} {σ : Nat → Option Int}
    (H : ∀ x, σ x = if x ∈ names then some (read fin ι h x) else none) (ps : List (Option Exp)) (ds : List (Option Int))
    (vs : List Int) (hd : pyDefaults σ ps = some ds) : bind fin ι h ps vs = pyBind ds vs := by
  induction ps generalizing ds vs with
  | nil =>
    cases hd
    cases vs <;> rfl
  | cons q ps ih =>
    cases q with
    | none =>
      simp only [pyDefaults] at hd
      cases hp : pyDefaults σ ps with
      | none => simp [hp] at hd
      | some ds' =>
        rw [hp] at hd
        cases hd
        cases vs with
        | nil => rfl
        | cons v vs => simp only [bind, pyBind, ih ds' vs hp]
    | some e =>
      simp only [pyDefaults] at hd
      cases he : pyEval σ e with
      | none => simp [he] at hd
      | some d =>
        cases hp : pyDefaults σ ps with
        | none => simp [he, hp] at hd
        | some ds' =>
          simp only [he, hp, Option.some.injEq] at hd
          cases hd
          cases vs with
          | nil => simp only [bind, pyBind, ih ds' [] hp, pyEval_default H he]
          | cons v vs => simp only [bind, pyBind, ih ds' vs hp]

theorem pyEval_congr {σ τ : Nat → Option Int} {e : Exp} (H : ∀ x ∈ e.reads, σ x = τ x) : pyEval σ e = pyEval τ e := by
  induction e with
  | lit n => rfl
  | glob x => exact H x (by simp [Exp.reads])
  | add a b iha ihb =>
    simp only [pyEval, iha fun x hx => H x (by simp [Exp.reads, hx]), ihb fun x hx => H x (by simp [Exp.reads, hx])]

theorem pyDefaults_congr {σ τ : Nat → Option Int} {ps : List (Option Exp)}
    (H : ∀ e, some e ∈ ps → ∀ x ∈ e.reads, σ x = τ x) : pyDefaults σ ps = pyDefaults τ ps := by
  induction ps with
  | nil => rfl
  | cons q ps ih =>
    have ih' := ih fun e he => H e (List.mem_cons_of_mem _ he)
    cases q with
    | none => simp only [pyDefaults, ih']
    | some e => simp only [pyDefaults, ih', pyEval_congr (H e (List.mem_cons_self ..))]

theorem pyEval_ok {σ : Nat → Option Int} {e : Exp} (H : ∀ x ∈ e.reads, σ x ≠ none) : ∃ v, pyEval σ e = some v := by
  induction e with
  | lit n => exact ⟨n, rfl⟩
  | glob x =>
    have := H x (by simp [Exp.reads])
    cases hx : σ x with
    | none => exact absurd hx this
    | some v => exact ⟨v, hx⟩
  | add a b iha ihb =>
    obtain ⟨u, hu⟩ := iha fun x hx => H x (by simp [Exp.reads, hx])
    obtain ⟨v, hv⟩ := ihb fun x hx => H x (by simp [Exp.reads, hx])
    exact ⟨u + v, by simp [pyEval, hu, hv]⟩

theorem pyDefaults_ok {σ : Nat → Option Int} {ps : List (Option Exp)}
    (H : ∀ e, some e ∈ ps → ∀ x ∈ e.reads, σ x ≠ none) : ∃ ds, pyDefaults σ ps = some ds := by
  induction ps with
  | nil => exact ⟨[], rfl⟩
  | cons q ps ih =>
    obtain ⟨ds, hd⟩ := ih fun e he => H e (List.mem_cons_of_mem _ he)
    cases q with
    | none => exact ⟨none :: ds, by simp [pyDefaults, hd]⟩
    | some e =>
      obtain ⟨v, hv⟩ := pyEval_ok (H e (List.mem_cons_self ..))
      exact ⟨some v :: ds, by simp [pyDefaults, hd, hv]⟩

/-- A step of the encoding that neither fails nor contradicts its assumptions is a step of Python. -/
theorem step_agree {p : List Stmt} {ι : Nat → Int} {c : Stmt} {rest : List Stmt} {a : PyState} {b : VState}
    {before : List Nat} (hA : Agree p ι (c :: rest) a b) (hS : DefaultsStable before (c :: rest))
    (hbef : ∀ x ∈ before, a.vars x ≠ none) {b' : VState} {ev : List Event} (h : encStep p ι b c = .done b' ev) :
    ∃ a', pyStep a c = some (a', ev) ∧ Agree p ι rest a' b' ∧
      ∃ before', DefaultsStable before' rest ∧ ∀ x ∈ before', a'.vars x ≠ none := by
  cases c with
  | assign x e =>
    simp only [encStep, evalMain_eq hA.vars] at h
    cases hv : pyEval a.vars e with
    | none => simp [hv] at h
    | some v =>
      simp only [hv] at h
      have key : ∀ h' : Nat → Int, read (isFinal p) ι h' x = v →
          (∀ y, y ≠ x → read (isFinal p) ι h' y = read (isFinal p) ι b.heap y) →
          Agree p ι rest ⟨fun y => if y = x then some v else a.vars y, a.funs⟩ ⟨h', x :: b.names, b.fnames⟩ := by
        intro h' hx hy
        refine ⟨?_, hA.dom, ?_, ?_, ?_⟩
        · intro y
          by_cases hyx : y = x
          · subst hyx
            simp [hx]
          · simp only [hA.vars, List.mem_cons, hyx, false_or, hy y hyx, if_false]
        · intro f ds hf
          obtain ⟨ps, hp, hd, hn⟩ := hA.funs f ds hf
          refine ⟨ps, hp, ?_, fun e he z hz hw => hn e he z hz (List.mem_cons_of_mem _ hw)⟩
          rw [← hd]
          refine pyDefaults_congr fun e he z hz => ?_
          have : z ≠ x := fun hzx => hn e he z hz (by simp [writes, hzx])
          simp [this]
        · intro f hf; exact hA.todo f hf
        · intro f hf; exact hA.done f hf
      have hbef' : ∀ z ∈ x :: before, (if z = x then some v else a.vars z) ≠ none := by
        intro z hz
        by_cases hzx : z = x
        · simp [hzx]
        · rw [if_neg hzx]
          exact hbef z (by simpa [hzx] using hz)
      by_cases hf : isFinal p x = true
      · rw [if_pos hf] at h
        by_cases hι : ι x = v
        · rw [if_pos hι] at h
          cases h
          refine ⟨_, by simp only [pyStep, hv]; rfl, key b.heap (by simp [read, hf, hι]) (fun y hy => rfl), x :: before, hS, hbef'⟩
        · rw [if_neg hι] at h; cases h
      · rw [if_neg hf] at h
        cases h
        refine ⟨_, by simp only [pyStep, hv]; rfl, key _ (by simp [read, hf]) (fun y hy => by simp [read, hy]), x :: before, hS, hbef'⟩
  | define f ps =>
    cases h
    obtain ⟨hps', hnone', hS'⟩ := hS
    have hnone := paramsOf_none hnone'
    have hps : ∀ e, some e ∈ ps → ∀ x ∈ e.reads, x ∈ before ∧ x ∉ writes rest := fun e he x hx =>
      ⟨(hps' e he x hx).1, fun hw => by obtain ⟨e', he'⟩ := mem_writes hw; exact (hps' e he x hx).2 e' he'⟩
    obtain ⟨ds, hd⟩ := pyDefaults_ok (σ := a.vars) (ps := ps) fun e he x hx => hbef x (hps e he x hx).1
    have hfresh : a.funs f = none := by
      cases hf : a.funs f with
      | none => rfl
      | some q =>
        have := hA.done f (by simp [hf])
        simp [paramsOf] at this
    have hpf : paramsOf p f = some ps := by
      rw [hA.todo f hfresh]; simp [paramsOf]
    refine ⟨⟨a.vars, fun g => if g = f then some ds else a.funs g⟩, by simp [pyStep, hd], ⟨hA.vars, ?_, ?_, ?_, ?_⟩,
      before, hS', hbef⟩
    · intro g
      by_cases hg : g = f
      · simp [hg]
      · simp only [List.mem_cons, hg, false_or]
        exact hA.dom g
    · intro g ds' hg
      by_cases hgf : g = f
      · subst hgf
        simp only [if_true, Option.some.injEq] at hg
        subst hg
        exact ⟨ps, hpf, hd, fun e he x hx => (hps e he x hx).2⟩
      · simp only [if_neg hgf] at hg
        exact hA.funs g ds' hg
    · intro g hg
      by_cases hgf : g = f
      · simp [hgf] at hg
      · simp only [if_neg hgf] at hg
        rw [hA.todo g hg]
        simp [paramsOf, Ne.symm hgf]
    · intro g hg
      by_cases hgf : g = f
      · exact hgf ▸ hnone
      · simp only [if_neg hgf] at hg
        have := hA.done g hg
        simpa [paramsOf, Ne.symm hgf] using this
  | call f args =>
    simp only [encStep] at h
    by_cases hf : f ∈ b.fnames
    · rw [if_pos hf, evalMains_eq hA.vars] at h
      cases hds : a.funs f with
      | none => exact absurd hds ((hA.dom f).1 hf)
      | some ds =>
        obtain ⟨ps, hp, hd, hn⟩ := hA.funs f ds hds
        cases hvs : pyEvals a.vars args with
        | none => simp [hvs] at h
        | some vs =>
          simp only [hvs, hp, bind_eq hA.vars ps ds vs hd] at h
          cases hb : pyBind ds vs with
          | none => simp [hb] at h
          | some ws =>
            simp only [hb] at h
            cases h
            refine ⟨a, by simp [pyStep, hds, hvs, hb], ⟨hA.vars, hA.dom, ?_, ?_, ?_⟩, before, hS, hbef⟩
            · intro g q hg
              obtain ⟨ps, h1, h2, h3⟩ := hA.funs g q hg
              exact ⟨ps, h1, h2, h3⟩
            · intro g hg; exact hA.todo g hg
            · intro g hg; exact hA.done g hg
    · rw [if_neg hf] at h; cases h

/-- A run of the encoding is a run of Python. -/
theorem run_agree {p : List Stmt} {ι : Nat → Int} (rest : List Stmt) {a : PyState} {b : VState}
    {before : List Nat} (hA : Agree p ι rest a b) (hS : DefaultsStable before rest)
    (hbef : ∀ x ∈ before, a.vars x ≠ none) {b' : VState} {ev : List Event} (h : encRun p ι b rest = .done b' ev) :
    ∃ a', pyRun a rest = some (a', ev) := by
  induction rest generalizing a b before b' ev with
  | nil => cases h; exact ⟨a, rfl⟩
  | cons c rest ih =>
    simp only [encRun] at h
    cases hs : encStep p ι b c with
    | failed => simp [hs] at h
    | infeasible => simp [hs] at h
    | done b1 ev1 =>
      simp only [hs] at h
      cases hr : encRun p ι b1 rest with
      | failed => simp [hr] at h
      | infeasible => simp [hr] at h
      | done b2 ev2 =>
        simp only [hr] at h
        cases h
        obtain ⟨a1, h1, hA1, before', hS1, hb1⟩ := step_agree hA hS hbef hs
        obtain ⟨a2, h2⟩ := ih hA1 hS1 hb1 hr
        exact ⟨a2, by simp [pyRun, h1, h2]⟩

theorem agree_init (p : List Stmt) (ι h : Nat → Int) :
    Agree p ι p ⟨fun _ => none, fun _ => none⟩ ⟨h, [], []⟩ :=
  ⟨by simp, by simp, by simp, by simp, by simp⟩

/-! ### The other direction: runs of Python, with the interpretation given by the final values -/

theorem step_keeps {a a' : PyState} {c : Stmt} {ev : List Event} (h : pyStep a c = some (a', ev)) {x : Nat}
    (hx : x ∉ writes [c]) : a'.vars x = a.vars x := by
  cases c with
  | assign y e =>
    simp only [pyStep] at h
    cases hv : pyEval a.vars e with
    | none => simp [hv] at h
    | some v =>
      simp only [hv, Option.map_some, Option.some.injEq, Prod.mk.injEq] at h
      rw [← h.1]
      have : x ≠ y := by simpa [writes] using hx
      simp [this]
  | define f ps =>
    simp only [pyStep] at h
    cases hv : pyDefaults a.vars ps with
    | none => simp [hv] at h
    | some v =>
      simp only [hv, Option.map_some, Option.some.injEq, Prod.mk.injEq] at h
      rw [← h.1]
  | call f args =>
    simp only [pyStep] at h
    cases hd : a.funs f with
    | none => simp [hd] at h
    | some ds =>
      cases hv : pyEvals a.vars args with
      | none => simp [hd, hv] at h
      | some vs =>
        simp only [hd, hv] at h
        cases hb : pyBind ds vs with
        | none => simp [hb] at h
        | some ws =>
          simp only [hb, Option.map_some, Option.some.injEq, Prod.mk.injEq] at h
          rw [← h.1]

theorem writes_cons (c : Stmt) (cs : List Stmt) : writes (c :: cs) = writes [c] ++ writes cs := by
  cases c <;> rfl

theorem run_cons {a a' : PyState} {c : Stmt} {cs : List Stmt} {ev : List Event}
    (h : pyRun a (c :: cs) = some (a', ev)) : ∃ a1 ev1 ev2, pyStep a c = some (a1, ev1) ∧
      pyRun a1 cs = some (a', ev2) ∧ ev = ev1 ++ ev2 := by
  simp only [pyRun] at h
  cases hs : pyStep a c with
  | none => simp [hs] at h
  | some r =>
    obtain ⟨a1, ev1⟩ := r
    simp only [hs] at h
    cases hr : pyRun a1 cs with
    | none => simp [hr] at h
    | some r =>
      obtain ⟨a2, ev2⟩ := r
      simp only [hr, Option.map_some, Option.some.injEq, Prod.mk.injEq] at h
      exact ⟨a1, ev1, ev2, rfl, by rw [← h.1]; exact hr, h.2.symm⟩

theorem run_keeps (cs : List Stmt) {a a' : PyState} {ev : List Event} (h : pyRun a cs = some (a', ev)) {x : Nat}
    (hx : x ∉ writes cs) : a'.vars x = a.vars x := by
  induction cs generalizing a ev with
  | nil => cases h; rfl
  | cons c cs ih =>
    obtain ⟨a1, ev1, ev2, h1, h2, _⟩ := run_cons h
    rw [writes_cons, List.mem_append, not_or] at hx
    rw [ih h2 hx.2, step_keeps h1 hx.1]

theorem writes_append (as bs : List Stmt) : writes (as ++ bs) = writes as ++ writes bs := by
  induction as with
  | nil => rfl
  | cons c as ih => rw [List.cons_append, writes_cons, writes_cons c as, ih, List.append_assoc]

/-- A step of Python is a step of the encoding, if the interpretation knows the values assigned to final
variables. -/
theorem step_follow {p : List Stmt} {ι : Nat → Int} {c : Stmt} {rest : List Stmt} {a : PyState} {b : VState}
    (hA : Agree p ι (c :: rest) a b) {a' : PyState} {ev : List Event} (h : pyStep a c = some (a', ev))
    (hι : ∀ x ∈ writes [c], isFinal p x = true → a'.vars x = some (ι x)) : ∃ b', encStep p ι b c = .done b' ev := by
  cases c with
  | assign x e =>
    simp only [pyStep] at h
    simp only [encStep, evalMain_eq hA.vars]
    cases hv : pyEval a.vars e with
    | none => simp [hv] at h
    | some v =>
      simp only [hv, Option.map_some, Option.some.injEq, Prod.mk.injEq] at h
      obtain ⟨h1, h2⟩ := h
      subst h1 h2
      by_cases hf : isFinal p x = true
      · have := hι x (by simp [writes]) hf
        simp only [if_true, Option.some.injEq] at this
        exact ⟨_, by simp only [if_pos hf, if_pos this.symm]; rfl⟩
      · exact ⟨_, by simp only [if_neg hf]; rfl⟩
  | define f ps =>
    simp only [pyStep] at h
    cases hv : pyDefaults a.vars ps with
    | none => simp [hv] at h
    | some v =>
      simp only [hv, Option.map_some, Option.some.injEq, Prod.mk.injEq] at h
      rw [← h.2]
      exact ⟨_, rfl⟩
  | call f args =>
    simp only [pyStep] at h
    cases hd : a.funs f with
    | none => simp [hd] at h
    | some ds =>
      obtain ⟨ps, hp, hd', hn⟩ := hA.funs f ds hd
      have hf := (hA.dom f).2 (by simp [hd])
      cases hv : pyEvals a.vars args with
      | none => simp [hd, hv] at h
      | some vs =>
        simp only [hd, hv] at h
        cases hb : pyBind ds vs with
        | none => simp [hb] at h
        | some ws =>
          simp only [hb, Option.map_some, Option.some.injEq, Prod.mk.injEq] at h
          rw [← h.2]
          exact ⟨b, by simp only [encStep, if_pos hf, evalMains_eq hA.vars, hv, hp, bind_eq hA.vars ps ds vs hd', hb]⟩

/-- Where Python raises an exception the encoding has a failing check. -/
theorem step_fails {p : List Stmt} {ι : Nat → Int} {c : Stmt} {rest : List Stmt} {a : PyState} {b : VState}
    {before : List Nat} (hA : Agree p ι (c :: rest) a b) (hS : DefaultsStable before (c :: rest))
    (hbef : ∀ x ∈ before, a.vars x ≠ none) (h : pyStep a c = none) : encStep p ι b c = .failed := by
  cases c with
  | assign x e =>
    simp only [pyStep, Option.map_eq_none_iff] at h
    simp only [encStep, evalMain_eq hA.vars, h]
  | define f ps =>
    simp only [pyStep, Option.map_eq_none_iff] at h
    obtain ⟨ds, hd⟩ := pyDefaults_ok (σ := a.vars) (ps := ps) fun e he x hx => hbef x (hS.1 e he x hx).1
    rw [h] at hd; cases hd
  | call f args =>
    simp only [pyStep] at h
    simp only [encStep]
    by_cases hf : f ∈ b.fnames
    · rw [if_pos hf, evalMains_eq hA.vars]
      cases hds : a.funs f with
      | none => exact absurd hds ((hA.dom f).1 hf)
      | some ds =>
        obtain ⟨ps, hp, hd, hn⟩ := hA.funs f ds hds
        cases hvs : pyEvals a.vars args with
        | none => rfl
        | some vs =>
          simp only [hds, hvs, Option.map_eq_none_iff] at h
          simp only [hp, bind_eq hA.vars ps ds vs hd, h]
    · rw [if_neg hf]

/-- A run of Python is a run of the encoding. -/
theorem run_follow {p : List Stmt} {ι : Nat → Int} (pre : List Stmt) {front rest : List Stmt} {a : PyState}
    {b : VState} {before : List Nat} (hp : p = front ++ (pre ++ rest)) (hA : Agree p ι (pre ++ rest) a b)
    (hS : DefaultsStable before (pre ++ rest)) (hbef : ∀ x ∈ before, a.vars x ≠ none) {a' : PyState}
    {ev : List Event} (h : pyRun a pre = some (a', ev)) (hι : ∀ x v, a'.vars x = some v → ι x = v) :
    ∃ b' before', encRun p ι b pre = .done b' ev ∧ Agree p ι rest a' b' ∧ DefaultsStable before' rest ∧
      ∀ x ∈ before', a'.vars x ≠ none := by
  induction pre generalizing front a b before ev with
  | nil => cases h; exact ⟨b, before, rfl, hA, hS, hbef⟩
  | cons c pre ih =>
    obtain ⟨a1, ev1, ev2, h1, h2, rfl⟩ := run_cons h
    obtain ⟨b1, hb1⟩ := step_follow (rest := pre ++ rest) hA h1 (by
      intro x hx hf
      have hcount : (writes p).count x ≤ 1 := by simpa [isFinal] using hf
      rw [hp, List.cons_append, writes_append, writes_cons, writes_append, List.count_append, List.count_append,
        List.count_append] at hcount
      have hpos := List.count_pos_iff.2 hx
      have hnot : x ∉ writes pre := fun hm => by
        have := List.count_pos_iff.2 hm
        omega
      have hsome : ∃ v, a1.vars x = some v := by
        cases c with
        | assign y e =>
          simp only [pyStep] at h1
          cases hv : pyEval a.vars e with
          | none => simp [hv] at h1
          | some v =>
            simp only [hv, Option.map_some, Option.some.injEq, Prod.mk.injEq] at h1
            have : x = y := by simpa [writes] using hx
            exact ⟨v, by rw [← h1.1]; simp [this]⟩
        | define f ps => simp [writes] at hx
        | call f args => simp [writes] at hx
      obtain ⟨v, hv⟩ := hsome
      have := run_keeps pre h2 hnot
      rw [hv, hι x v (this.trans hv)])
    obtain ⟨a1', h1', hA1, before', hS1, hbef1⟩ := step_agree hA hS hbef hb1
    rw [h1] at h1'
    cases h1'
    obtain ⟨b', bf, hb, hA', hS', hbf⟩ := ih (front := front ++ [c]) (by simpa using hp) hA1 hS1 hbef1 h2
    exact ⟨b', bf, by simp [encRun, hb1, hb], hA', hS', hbf⟩

/-- A run succeeds, or some step raises an exception after a successful run. -/
theorem run_cases (cs : List Stmt) (a : PyState) : (∃ r, pyRun a cs = some r) ∨
    ∃ pre c rest a' ev, cs = pre ++ c :: rest ∧ pyRun a pre = some (a', ev) ∧ pyStep a' c = none := by
  induction cs generalizing a with
  | nil => exact .inl ⟨_, rfl⟩
  | cons c cs ih =>
    cases hs : pyStep a c with
    | none => exact .inr ⟨[], c, cs, a, [], rfl, rfl, hs⟩
    | some r =>
      obtain ⟨a1, ev1⟩ := r
      rcases ih a1 with ⟨r, hr⟩ | ⟨pre, d, rest, a', ev, rfl, hr, hn⟩
      · exact .inl ⟨(r.1, ev1 ++ r.2), by simp [pyRun, hs, hr]⟩
      · exact .inr ⟨c :: pre, d, rest, a', ev1 ++ ev, rfl, by simp [pyRun, hs, hr], hn⟩

theorem encRun_append_failed {p : List Stmt} {ι : Nat → Int} (pre : List Stmt) {b b' : VState} {ev : List Event}
    (h : encRun p ι b pre = .done b' ev) {c : Stmt} {rest : List Stmt} (hc : encStep p ι b' c = .failed) :
    encRun p ι b (pre ++ c :: rest) = .failed := by
  induction pre generalizing b ev with
  | nil => cases h; simp [encRun, hc]
  | cons d pre ih =>
    simp only [encRun] at h
    cases hs : encStep p ι b d with
    | failed => simp [hs] at h
    | infeasible => simp [hs] at h
    | done b1 ev1 =>
      simp only [hs] at h
      cases hr : encRun p ι b1 pre with
      | failed => simp [hr] at h
      | infeasible => simp [hr] at h
      | done b2 ev2 =>
        simp only [hr] at h
        cases h
        simp [encRun, hs, ih hr]

end Nagini.Defaults
