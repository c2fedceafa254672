import Verif.Lemmas.ObligHold
/-!
Executions together with the permissions of the Viper states in which the statements were verified.
-/
set_option linter.unusedVariables false
set_option linter.unusedSimpArgs false
namespace Nagini.Oblig

open Nagini.Termination (Inst Entry check initMap tcond inhaled callCheck positive LoopState loopFlag loopEntry loopEnd
  loopPositive resetAmount check_iff positive_iff tcond_iff tcond_ignore_iff inhaled_pos Active)

variable {σ M : Type}

/-- What a loop needs for further iterations. -/
def LoopK (ct : Nat) (P : M → Method σ M) (map : List Entry) (c : σ → Bool) (inv : σ → Contract) (body : Stmt σ M)
    (flag : Bool) (orig : Nat) (fr : Hold) (Q : Option Exit → σ → Hold → Prop) : Prop :=
  (∀ s1, c s1 = true → (inv s1).pure → loopPositive (loopState ct c inv s1) = true → (iterHold ct inv s1).consistent →
    wp ct P map body (bodyPost ct c inv flag s1 fr Q) s1 (iterHold ct inv s1)) ∧
  (∀ s2, c s2 = false → (inv s2).pure → (exitHold ct inv orig fr s2).consistent →
    Q none s2 (exitHold ct inv orig fr s2))

/-- What a caller needs. -/
def CallK (ct : Nat) (post : Bool → σ → Contract) (fr : Hold) (Q : Bool → σ → Hold → Prop) : Prop :=
  ∀ ex s', (post ex s').pure → (giveAll (insts ct (post ex s')) fr).consistent →
    Q ex s' (giveAll (insts ct (post ex s')) fr)

theorem bodyPost_mono {ct : Nat} {c : σ → Bool} {inv : σ → Contract} {flag : Bool} {s1 : σ} {h' : Hold}
    {Q Q' : Option Exit → σ → Hold → Prop} (hq : ∀ e s h, Q e s h → Q' e s h) :
    ∀ e s h, bodyPost ct c inv flag s1 h' Q e s h → bodyPost ct c inv flag s1 h' Q' e s h := by
  intro e s h hb
  rcases e with _ | e
  · exact hb
  · cases e with
    | brk => exact fun hc => hq _ _ _ (hb hc)
    | cont => exact hb
    | ret => exact fun hc => hq _ _ _ (hb hc)
    | exc => exact fun hc => hq _ _ _ (hb hc)

theorem callOk_mono {ct : Nat} {map : List Entry} {pre : Contract} {post : Bool → σ → Contract}
    {Q Q' : Bool → σ → Hold → Prop} {h : Hold} (hq : ∀ e s h, Q e s h → Q' e s h)
    (hc : callOk ct map pre post Q h) : callOk ct map pre post Q' h := by
  obtain ⟨h1, h2, h', h3, h4, h5⟩ := hc
  exact ⟨h1, h2, h', h3, h4, fun ex s' hp hk => hq _ _ _ (h5 ex s' hp hk)⟩

theorem wp_mono {ct : Nat} {P : M → Method σ M} {map : List Entry} : ∀ (t : Stmt σ M)
    {Q Q' : Option Exit → σ → Hold → Prop}, (∀ e s h, Q e s h → Q' e s h) →
    ∀ s h, wp ct P map t Q s h → wp ct P map t Q' s h := by
  intro t
  induction t with
  | act r => intro Q Q' hq s h hw s' hr; exact hq _ _ _ (hw s' hr)
  | acquire l => intro Q Q' hq s h hw; exact callOk_mono (fun _ _ _ => hq _ _ _) hw
  | release l => intro Q Q' hq s h hw; exact callOk_mono (fun _ _ _ => hq _ _ _) hw
  | exit e => intro Q Q' hq s h hw; exact hq _ _ _ hw
  | call m arg back => intro Q Q' hq s h hw; exact callOk_mono (fun _ _ _ => hq _ _ _) hw
  | seq a b iha ihb =>
    intro Q Q' hq s h hw
    refine iha (fun e s h hp => ?_) s h hw
    cases e with
    | none => exact ihb hq s h hp
    | some e => exact hq _ _ _ hp
  | ite c a b iha ihb =>
    intro Q Q' hq s h hw
    rw [wp] at hw ⊢
    split at hw
    · rename_i hc; rw [if_pos hc]; exact iha hq s h hw
    · rename_i hc; rw [if_neg hc]; exact ihb hq s h hw
  | tryExcept a b iha ihb =>
    intro Q Q' hq s h hw
    refine iha (fun e s h hp => ?_) s h hw
    unfold tryPost at hp ⊢
    split at hp
    · rename_i hc; rw [if_pos hc]; exact ihb hq s h hp
    · rename_i hc; rw [if_neg hc]; exact hq _ _ _ hp
  | loop c inv body ih =>
    intro Q Q' hq s h hw
    obtain ⟨h', h1, h2, h3⟩ := hw
    exact ⟨h', h1, fun s1 a1 a2 a3 a4 => ih (bodyPost_mono hq) _ _ (h2 s1 a1 a2 a3 a4),
      fun s2 a1 a2 a3 => hq _ _ _ (h3 s2 a1 a2 a3)⟩

/-- What remains to be done, with the states in which loops and calls were verified. -/
inductive GItem (σ M : Type)
  | stmt (s : Stmt σ M)
  | handler (t : Stmt σ M)
  | again (c : σ → Bool) (inv : σ → Contract) (body : Stmt σ M) (flag : Bool) (s1 : σ) (orig : Nat) (fr : Hold)
  | ret (s0 : σ) (back : σ → σ → σ) (map : List Entry) (m : M) (s1 : σ) (fr : Hold)

/-- See `GItem`. -/
def GItem.erase : GItem σ M → Item σ M
  | .stmt s => .stmt s
  | .handler t => .handler t
  | .again c _ body _ _ _ _ => .again c body
  | .ret s0 back _ _ _ _ => .ret s0 back

/-- What is verified about the rest of an execution; `B` is what has to hold at its end. -/
def WK (ct : Nat) (P : M → Method σ M) (B : Option Exit → σ → Hold → Prop) :
    List (GItem σ M) → List Entry → Option Exit → σ → Hold → Prop
  | [], _ => B
  | .stmt t :: K, map => seqPost (wp ct P map t (WK ct P B K map)) (WK ct P B K map)
  | .handler t :: K, map => tryPost (wp ct P map t (WK ct P B K map)) (WK ct P B K map)
  | .again c inv body flag s1 orig fr :: K, map => fun e s h =>
    bodyPost ct c inv flag s1 fr (WK ct P B K map) e s h ∧ LoopK ct P map c inv body flag orig fr (WK ct P B K map)
  | .ret s0 back map m s1 fr :: K, _ => fun e s h =>
    methodPost ct (P m) s1 e s h ∧ CallK ct (fun ex => (P m).post ex s1) fr
      (fun ex s' h' => WK ct P B K map (if ex then some .exc else none) (back s0 s') h')

/-- Permissions not available at the moment. -/
def frames : List (GItem σ M) → List Nat
  | [] => []
  | .stmt _ :: K => frames K
  | .handler _ :: K => frames K
  | .again _ _ _ _ _ _ fr :: K => fr.all ++ frames K
  | .ret _ _ _ _ _ fr :: K => fr.all ++ frames K

/-- Whoever leaves obligations behind promised to terminate. -/
def Promised : List (GItem σ M) → Nat → Prop
  | [], _ => True
  | .stmt _ :: K, t => Promised K t
  | .handler _ :: K, t => Promised K t
  | .again _ _ _ flag _ orig fr :: K, t =>
    (leakFree fr = false ∨ 0 < fr.t → flag = true ∧ 0 < t) ∧ orig = fr.t ∧ Promised K fr.t
  | .ret _ _ _ _ _ fr :: K, t => (leakFree fr = false ∨ 0 < fr.t → 0 < t) ∧ Promised K fr.t

theorem Promised.mono : ∀ {K : List (GItem σ M)} {t t' : Nat}, Promised K t → t ≤ t' → Promised K t' := by
  intro K
  induction K with
  | nil => intro t t' _ _; trivial
  | cons i K ih =>
    intro t t' h hle
    cases i with
    | stmt s => exact ih h hle
    | handler s => exact ih h hle
    | again c inv body flag s1 orig fr =>
      exact ⟨fun hx => ⟨(h.1 hx).1, Nat.lt_of_lt_of_le (h.1 hx).2 hle⟩, h.2⟩
    | ret s0 back map m s1 fr => exact ⟨fun hx => Nat.lt_of_lt_of_le (h.1 hx) hle, h.2⟩

/-- Obligations left behind imply a promise. -/
theorem Promised.pos : ∀ {K : List (GItem σ M)} {t : Nat} {r : Nat}, Promised K t → r ∈ frames K → 0 < t := by
  intro K
  induction K with
  | nil => intro t r _ hr; cases hr
  | cons i K ih =>
    intro t r h hr
    cases i with
    | stmt s => exact ih h hr
    | handler s => exact ih h hr
    | again c inv body flag s1 orig fr =>
      rcases List.mem_append.1 hr with hr | hr
      · exact (h.1 (Or.inl (not_leakFree hr))).2
      · exact (h.1 (Or.inr (ih h.2.2 hr))).2
    | ret s0 back map m s1 fr =>
      rcases List.mem_append.1 hr with hr | hr
      · exact h.1 (Or.inl (not_leakFree hr))
      · exact h.1 (Or.inr (ih h.2 hr))

/-- A thread, with the permissions available at the moment. -/
structure GCfg (σ M : Type) where
  mode : Option Exit
  ctrl : List (GItem σ M)
  map : List Entry
  st : σ
  h : Hold

/-- All locks of a thread; `R` are locks the method does not know of. -/
def GCfg.total (R : List Nat) (g : GCfg σ M) : List Nat := g.h.all ++ (frames g.ctrl ++ R)

/-- The invariant of executions of verified programs. -/
structure GInv (ct : Nat) (P : M → Method σ M) (B : Option Exit → σ → Hold → Prop) (R : List Nat) (g : GCfg σ M) :
    Prop where
  wk : WK ct P B g.ctrl g.map g.mode g.st g.h
  nodup : (g.total R).Nodup
  promised : Promised g.ctrl g.h.t

/-- Everything is accepted. -/
def yes : Nat → Int → Bool := fun _ _ => true

/-- Steps. -/
inductive GStep (ct : Nat) (P : M → Method σ M) (R : List Nat) : GCfg σ M → GCfg σ M → Prop
  | act {r K map s s' h} : r s s' → GStep ct P R ⟨none, .stmt (.act r) :: K, map, s, h⟩ ⟨none, K, map, s', h⟩
  | acquire {l K map s h} : l s ∉ h.all ++ (frames K ++ R) →
      GStep ct P R ⟨none, .stmt (.acquire l) :: K, map, s, h⟩ ⟨none, K, map, s, { h with u := l s :: h.u }⟩
  | release {l K map s h h'} : takeAll (check map) (insts ct (releasePre (l s))) h = some h' →
      GStep ct P R ⟨none, .stmt (.release l) :: K, map, s, h⟩ ⟨none, K, map, s, h'⟩
  | exit {e K map s h} : GStep ct P R ⟨none, .stmt (.exit e) :: K, map, s, h⟩ ⟨some e, K, map, s, h⟩
  | call {m arg back K map s h h'} : takeAll (check map) (insts ct ((P m).pre (arg s))) h = some h' →
      GStep ct P R ⟨none, .stmt (.call m arg back) :: K, map, s, h⟩
        ⟨none, .stmt (P m).body :: .ret s back map m (arg s) h' :: K, initMap false (insts ct ((P m).pre (arg s))),
          arg s, entryHold ct ((P m).pre (arg s))⟩
  | seq {a b K map s h} : GStep ct P R ⟨none, .stmt (.seq a b) :: K, map, s, h⟩
      ⟨none, .stmt a :: .stmt b :: K, map, s, h⟩
  | ite {c a b K map s h} : GStep ct P R ⟨none, .stmt (.ite c a b) :: K, map, s, h⟩
      ⟨none, .stmt (if c s then a else b) :: K, map, s, h⟩
  | enter {c inv body K map s h h'} : c s = true → takeAll yes (insts ct (inv s s)) h = some h' →
      GStep ct P R ⟨none, .stmt (.loop c inv body) :: K, map, s, h⟩
        ⟨none, .stmt body :: .again c (inv s) body (loopFlag ct (loopState ct c (inv s) s)) s h.t h' :: K, map, s,
          iterHold ct (inv s) s⟩
  | skip {c inv body K map s h h'} : c s = false → takeAll yes (insts ct (inv s s)) h = some h' →
      GStep ct P R ⟨none, .stmt (.loop c inv body) :: K, map, s, h⟩
        ⟨none, K, map, s, exitHold ct (inv s) h.t h' s⟩
  | tryExcept {a b K map s h} : GStep ct P R ⟨none, .stmt (.tryExcept a b) :: K, map, s, h⟩
      ⟨none, .stmt a :: .handler b :: K, map, s, h⟩
  | noExc {t K map s h} : GStep ct P R ⟨none, .handler t :: K, map, s, h⟩ ⟨none, K, map, s, h⟩
  | caught {t K map s h} : GStep ct P R ⟨some .exc, .handler t :: K, map, s, h⟩ ⟨none, .stmt t :: K, map, s, h⟩
  | past {e t K map s h} : e ≠ .exc → GStep ct P R ⟨some e, .handler t :: K, map, s, h⟩ ⟨some e, K, map, s, h⟩
  | drop {e t K map s h} : GStep ct P R ⟨some e, .stmt t :: K, map, s, h⟩ ⟨some e, K, map, s, h⟩
  | again {e c inv body flag s1 orig fr K map s h h3} : e = none ∨ e = some .cont → c s = true →
      takeAll (check (initMap false (insts ct (inv s1)))) (insts ct (inv s)) h = some h3 → leakFree h3 = true →
      GStep ct P R ⟨e, .again c inv body flag s1 orig fr :: K, map, s, h⟩
        ⟨none, .stmt body :: .again c inv body flag s orig fr :: K, map, s, iterHold ct inv s⟩
  | done {e c inv body flag s1 orig fr K map s h h3} : e = none ∨ e = some .cont → c s = false →
      takeAll (check (initMap false (insts ct (inv s1)))) (insts ct (inv s)) h = some h3 → leakFree h3 = true →
      GStep ct P R ⟨e, .again c inv body flag s1 orig fr :: K, map, s, h⟩ ⟨none, K, map, s, exitHold ct inv orig fr s⟩
  | brk {c inv body flag s1 orig fr K map s h} :
      GStep ct P R ⟨some .brk, .again c inv body flag s1 orig fr :: K, map, s, h⟩ ⟨none, K, map, s, fr.merge h⟩
  | leave {e c inv body flag s1 orig fr K map s h} : e = .ret ∨ e = .exc →
      GStep ct P R ⟨some e, .again c inv body flag s1 orig fr :: K, map, s, h⟩ ⟨some e, K, map, s, fr.merge h⟩
  | ret {e s0 back map' m s1 fr K map s h h'} : e = none ∨ e = some .ret →
      takeAll yes (insts ct ((P m).post false s1 s)) h = some h' → leakFree h' = true →
      GStep ct P R ⟨e, .ret s0 back map' m s1 fr :: K, map, s, h⟩
        ⟨none, K, map', back s0 s, giveAll (insts ct ((P m).post false s1 s)) fr⟩
  | raise {s0 back map' m s1 fr K map s h h'} :
      takeAll yes (insts ct ((P m).post true s1 s)) h = some h' → leakFree h' = true →
      GStep ct P R ⟨some .exc, .ret s0 back map' m s1 fr :: K, map, s, h⟩
        ⟨some .exc, K, map', back s0 s, giveAll (insts ct ((P m).post true s1 s)) fr⟩

/-! ### Permissions of contracts -/

theorem entryHold_eq {ct : Nat} {c : Contract} :
    entryHold ct c = bound (insts ct c) (giveAll (insts ct c) .empty) := by
  rw [entryHold, inhale_method]

theorem iterHold_eq {ct : Nat} {inv : σ → Contract} {s : σ} :
    iterHold ct inv s = bound (insts ct (inv s)) (giveAll (insts ct (inv s)) .empty) := by
  rw [iterHold, inhale_loop]

theorem exhale_yes_method {ct : Nat} {c : Contract} {h : Hold} {map : List Entry} :
    exhale (useMethod map true) (insts ct c) h = takeAll yes (insts ct c) h := by
  rw [exhale_method]; rfl

theorem exhale_check_method {ct : Nat} {c : Contract} {h : Hold} {map : List Entry} :
    exhale (useMethod map false) (insts ct c) h = takeAll (check map) (insts ct c) h := by
  rw [exhale_method]
  have : (fun (k : Nat) (v : Int) => false || check map k v) = check map := by funext k v; simp
  rw [this]

theorem exhale_yes_loop {ct : Nat} {c : Contract} {h : Hold} {map : List Entry} :
    exhale (useLoop map true) (insts ct c) h = takeAll yes (insts ct c) h := by
  rw [exhale_loop]; rfl

theorem exhale_check_loop {ct : Nat} {c : Contract} {h : Hold} {map : List Entry} :
    exhale (useLoop map false) (insts ct c) h = takeAll (check map) (insts ct c) h := by
  rw [exhale_loop]
  have : (fun (k : Nat) (v : Int) => false || check map k v) = check map := by funext k v; simp
  rw [this]

theorem exitHold_spec {ct : Nat} {inv : σ → Contract} {orig : Nat} {fr : Hold} {s : σ} (ho : orig = fr.t) :
    exitHold ct inv orig fr s = { giveAll (insts ct (inv s)) fr with t := fr.t } := by
  unfold exitHold
  simp only [inhale_loop]
  congr 1
  rw [ho]
  unfold resetAmount
  simp only
  split <;> omega

theorem callK_of {ct : Nat} {post : Bool → σ → Contract} {h' : Hold} {Q : Bool → σ → Hold → Prop}
    (h : ∀ ex s', (post ex s').pure → (inhale (useMethod [] true) (insts ct (post ex s')) h').consistent →
        Q ex s' (inhale (useMethod [] true) (insts ct (post ex s')) h')) : CallK ct post h' Q := by
  intro ex s' hp hc
  have := h ex s' hp
  rw [inhale_method] at this
  exact this hc

end Nagini.Oblig
