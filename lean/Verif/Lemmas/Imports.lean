import Verif.Spec.Imports
import Mathlib.Data.Fintype.Basic
import Mathlib.Data.Fintype.EquivFin
import Mathlib.Data.Finset.Card
import Mathlib.Order.WellFounded
import Mathlib.Data.Fintype.Order
set_option linter.unusedVariables false
set_option linter.unusedSimpArgs false
namespace Nagini.Imports
variable {N : Nat}

/-! ### Paths -/

inductive Path (G : Graph N) : Fin N → List (Entry N) → Fin N → Prop
  | nil {a} : Path G a [] a
  | cons {a e p b} : e ∈ G a → Path G e.mod p b → Path G a (e :: p) b

theorem Path.of_reach {G : Graph N} {a b : Fin N} (h : Reach G a b) : ∃ p, Path G a p b := by
  induction h using Relation.ReflTransGen.head_induction_on with
  | refl => exact ⟨[], .nil⟩
  | head h _ ih =>
    obtain ⟨e, he, rfl⟩ := h
    obtain ⟨p, hp⟩ := ih
    exact ⟨e :: p, .cons he hp⟩

theorem Path.suffix {G : Graph N} {c b : Fin N} {p : List (Entry N)} (h : Path G c p b)
    (hn : (c :: p.map Entry.mod).Nodup) (a : Fin N) (ha : a ∈ c :: p.map Entry.mod) :
    ∃ s, Path G a s b ∧ (a :: s.map Entry.mod).Nodup := by
  induction h with
  | nil =>
    rw [List.map_nil, List.mem_singleton] at ha
    exact ⟨[], ha ▸ .nil, by simp⟩
  | @cons c' e p b he hp ih =>
    rcases List.mem_cons.1 ha with rfl | ha'
    · exact ⟨e :: p, .cons he hp, hn⟩
    · exact ih (List.Nodup.of_cons hn) (by simpa using ha')

theorem Path.simple {G : Graph N} {a b : Fin N} {p : List (Entry N)} (h : Path G a p b) :
    ∃ s, Path G a s b ∧ (a :: s.map Entry.mod).Nodup := by
  induction h with
  | nil => exact ⟨[], .nil, by simp⟩
  | @cons a e p b he hp ih =>
    obtain ⟨s, hs, hn⟩ := ih
    by_cases ha : a ∈ e.mod :: s.map Entry.mod
    · exact hs.suffix hn a ha
    · exact ⟨e :: s, .cons he hs, by
        rw [List.map_cons]; exact List.nodup_cons.2 ⟨ha, hn⟩⟩

/-! ### `included` -/

theorem enterAll_some {rec : List (Obj N) → Obj N → Option (List (Obj N))} {ex es l}
    (h : enterAll rec ex es = some l) :
    ∀ e ∈ es, ∃ l', enter rec ex e = some l' ∧ l' ⊆ l := by
  induction es generalizing l with
  | nil => intro e he; cases he
  | cons a as ih =>
    rw [enterAll] at h
    cases ha : enter rec ex a with
    | none => rw [ha] at h; cases h
    | some la =>
      cases hs : enterAll rec ex as with
      | none => rw [ha, hs] at h; cases h
      | some ls =>
        rw [ha, hs] at h
        cases h
        intro e he
        rcases List.mem_cons.1 he with rfl | he
        · exact ⟨la, ha, fun x hx => List.mem_append_left _ hx⟩
        · obtain ⟨l', h1, h2⟩ := ih hs e he
          exact ⟨l', h1, fun x hx => List.mem_append_right _ (h2 hx)⟩

theorem enterAll_mem {rec : List (Obj N) → Obj N → Option (List (Obj N))} {ex es l}
    (h : enterAll rec ex es = some l) {x} (hx : x ∈ l) :
    ∃ e ∈ es, ∃ l', enter rec ex e = some l' ∧ x ∈ l' := by
  induction es generalizing l with
  | nil => rw [enterAll] at h; cases h; cases hx
  | cons a as ih =>
    rw [enterAll] at h
    cases ha : enter rec ex a with
    | none => rw [ha] at h; cases h
    | some la =>
      cases hs : enterAll rec ex as with
      | none => rw [ha, hs] at h; cases h
      | some ls =>
        rw [ha, hs] at h
        cases h
        rcases List.mem_append.1 hx with hx | hx
        · exact ⟨a, by simp, la, ha, hx⟩
        · obtain ⟨e, he, r⟩ := ih hs hx
          exact ⟨e, by simp [he], r⟩

theorem enterAll_of {rec : List (Obj N) → Obj N → Option (List (Obj N))} {ex es}
    (h : ∀ e ∈ es, ∃ l', enter rec ex e = some l') : ∃ l, enterAll rec ex es = some l := by
  induction es with
  | nil => exact ⟨[], rfl⟩
  | cons a as ih =>
    obtain ⟨la, ha⟩ := h a (by simp)
    obtain ⟨ls, hs⟩ := ih fun e he => h e (by simp [he])
    exact ⟨la ++ ls, by simp [enterAll, ha, hs]⟩

theorem included_head {G : Graph N} {n ex o l} (h : included G n ex o = some l) : o ∈ l := by
  cases n with
  | zero => cases h
  | succ n =>
    rw [included] at h
    cases he : enterAll (included G n) (o :: ex) (G o.mod) with
    | none => rw [he] at h; cases h
    | some l' => rw [he] at h; cases h; simp

/-- Every reachable module is visited. -/
theorem included_visit {G : Graph N} {n ex} {o : Obj N} {l p b} (h : included G n ex o = some l)
    (hp : Path G o.mod p b) (hn : (p.map Entry.mod).Nodup)
    (hex : ∀ v m, Entry.view v m ∈ p → Obj.copy v m ∉ o :: ex) :
    ∃ n' ex' o' l', included G n' ex' o' = some l' ∧ o'.mod = b ∧ l' ⊆ l ∧ n' ≤ n := by
  induction p generalizing n ex o l with
  | nil => cases hp; exact ⟨n, ex, o, l, h, rfl, fun _ hx => hx, Nat.le_refl _⟩
  | cons e p ih =>
    cases hp with
    | cons he hp =>
      cases n with
      | zero => cases h
      | succ n =>
        rw [included] at h
        cases hea : enterAll (included G n) (o :: ex) (G o.mod) with
        | none => rw [hea] at h; cases h
        | some l1 =>
          rw [hea] at h
          cases h
          obtain ⟨l2, h2, hs2⟩ := enterAll_some hea e he
          rw [List.map_cons] at hn
          cases e with
          | star m =>
            rw [enter] at h2
            obtain ⟨n', ex', o', l', i1, i2, i3, i4⟩ := ih (o := .orig m) h2 hp hn.of_cons
              (by
                intro v m' hm hc
                rcases List.mem_cons.1 hc with hc | hc
                · cases hc
                · exact hex v m' (by simp [hm]) hc)
            exact ⟨n', ex', o', l', i1, i2, fun x hx => List.mem_cons_of_mem _ (hs2 (i3 hx)),
              by omega⟩
          | view v m =>
            have hnot : Obj.copy v m ∉ o :: ex := hex v m (by simp)
            rw [enter, if_neg hnot] at h2
            obtain ⟨n', ex', o', l', i1, i2, i3, i4⟩ := ih (o := .copy v m) h2 hp hn.of_cons
              (by
                intro v' m' hm hc
                rcases List.mem_cons.1 hc with hc | hc
                · cases hc
                  exact (List.nodup_cons.1 hn).1 (List.mem_map.2 ⟨_, hm, rfl⟩)
                · exact hex v' m' (by simp [hm]) hc)
            exact ⟨n', ex', o', l', i1, i2, fun x hx => List.mem_cons_of_mem _ (hs2 (i3 hx)),
              by omega⟩

/-- Only reachable modules are visited. -/
theorem included_sound {G : Graph N} {n ex} {o : Obj N} {l} (h : included G n ex o = some l) :
    ∀ x ∈ l, Reach G o.mod x.mod := by
  induction n generalizing ex o l with
  | zero => cases h
  | succ n ih =>
    rw [included] at h
    cases hea : enterAll (included G n) (o :: ex) (G o.mod) with
    | none => rw [hea] at h; cases h
    | some l1 =>
      rw [hea] at h
      cases h
      intro x hx
      rcases List.mem_cons.1 hx with rfl | hx
      · exact .refl
      · obtain ⟨e, he, l', h1, h2⟩ := enterAll_mem hea hx
        cases e with
        | star m => exact .head ⟨_, he, rfl⟩ (ih h1 x h2)
        | view v m =>
          rw [enter] at h1
          split at h1
          · cases h1; cases h2
          · exact .head ⟨_, he, rfl⟩ (ih h1 x h2)

/-- On a cycle of star imports the recursion never ends. -/
theorem included_star_cycle {G : Graph N} (n : Nat) : ∀ (ex : List (Obj N)) (o : Obj N),
    Relation.TransGen (StarEdge G) o.mod o.mod → included G n ex o = none := by
  induction n with
  | zero => intros; rfl
  | succ n ih =>
    intro ex o hc
    rw [included]
    cases hea : enterAll (included G n) (o :: ex) (G o.mod) with
    | none => rfl
    | some l =>
      exfalso
      obtain ⟨m, hm, hm'⟩ := Relation.TransGen.head'_iff.1 hc
      obtain ⟨l', h1, _⟩ := enterAll_some hea (.star m) hm
      rw [enter, ih _ (.orig m) (Relation.TransGen.tail' hm' hm)] at h1
      cases h1

theorem included_mono {G : Graph N} {n} : ∀ {k ex o l}, n ≤ k → included G n ex o = some l →
    included G k ex o = some l := by
  induction n with
  | zero => intro k ex o l _ h; cases h
  | succ n ih =>
    intro k ex o l hk h
    obtain ⟨k, rfl⟩ : ∃ k', k = k' + 1 := ⟨k - 1, by omega⟩
    have key : ∀ (ex : List (Obj N)) es l, enterAll (included G n) ex es = some l →
        enterAll (included G k) ex es = some l := by
      intro ex es
      induction es with
      | nil => intro l h; exact h
      | cons e es ihs =>
        intro l h
        rw [enterAll] at h ⊢
        cases he : enter (included G n) ex e with
        | none => rw [he] at h; cases h
        | some le =>
          have he' : enter (included G k) ex e = some le := by
            cases e with
            | star m => exact ih (by omega) he
            | view v m =>
              rw [enter] at he ⊢
              split at he
              · rename_i hc; rw [if_pos hc]; exact he
              · rename_i hc; rw [if_neg hc]; exact ih (by omega) he
          rw [he] at h
          rw [he']
          cases hs : enterAll (included G n) ex es with
          | none => rw [hs] at h; cases h
          | some ls =>
            rw [hs] at h
            rw [ihs _ hs]
            exact h
    rw [included] at h ⊢
    cases hea : enterAll (included G n) (o :: ex) (G o.mod) with
    | none => rw [hea] at h; cases h
    | some l' => rw [hea] at h; rw [key _ _ _ hea]; exact h

/-- All copies made by views. -/
def allCopies (G : Graph N) : List (Obj N) :=
  (List.finRange N).flatMap fun m => (G m).filterMap fun e =>
    match e with
    | .view v k => some (.copy v k)
    | .star _ => none

theorem mem_allCopies {G : Graph N} {m v k} (h : Entry.view v k ∈ G m) :
    Obj.copy v k ∈ allCopies G :=
  List.mem_flatMap.2 ⟨m, List.mem_finRange m, List.mem_filterMap.2 ⟨_, h, rfl⟩⟩

def freshCount (G : Graph N) (ex : List (Obj N)) : Nat :=
  ((allCopies G).toFinset.filter (· ∉ ex)).card

theorem freshCount_le (G : Graph N) (ex : List (Obj N)) (o : Obj N) :
    freshCount G (o :: ex) ≤ freshCount G ex := by
  apply Finset.card_le_card
  intro x hx
  simp only [Finset.mem_filter, List.mem_cons, not_or] at hx ⊢
  exact ⟨hx.1, hx.2.2⟩

theorem freshCount_lt (G : Graph N) (ex : List (Obj N)) (o : Obj N) (h1 : o ∈ allCopies G)
    (h2 : o ∉ ex) : freshCount G (o :: ex) < freshCount G ex := by
  apply Finset.card_lt_card
  constructor
  · intro x hx
    simp only [Finset.mem_filter, List.mem_cons, not_or] at hx ⊢
    exact ⟨hx.1, hx.2.2⟩
  · intro hss
    have := hss (x := o) (by simp [h1, h2])
    simp at this

theorem included_fuel {G : Graph N} (ex : List (Obj N)) (o : Obj N)
    (h : ∀ e ∈ G o.mod, ∃ n l, enter (included G n) (o :: ex) e = some l) :
    ∃ n l, included G n ex o = some l := by
  have : ∀ es : List (Entry N), (∀ e ∈ es, ∃ n l, enter (included G n) (o :: ex) e = some l) →
      ∃ n, ∀ e ∈ es, ∃ l, enter (included G n) (o :: ex) e = some l := by
    intro es
    induction es with
    | nil => intro _; exact ⟨0, by simp⟩
    | cons e es ih =>
      intro h
      obtain ⟨n1, h1⟩ := ih fun e he => h e (by simp [he])
      obtain ⟨n2, l2, h2⟩ := h e (by simp)
      have mono : ∀ {n k e l}, n ≤ k → enter (included G n) (o :: ex) e = some l →
          enter (included G k) (o :: ex) e = some l := by
        intro n k e l hk he
        cases e with
        | star m => exact included_mono hk he
        | view v m =>
          rw [enter] at he ⊢
          split at he
          · rename_i hc; rw [if_pos hc]; exact he
          · rename_i hc; rw [if_neg hc]; exact included_mono hk he
      refine ⟨max n1 n2, fun e' he' => ?_⟩
      rcases List.mem_cons.1 he' with rfl | he'
      · exact ⟨l2, mono (Nat.le_max_right _ _) h2⟩
      · obtain ⟨l, hl⟩ := h1 e' he'
        exact ⟨l, mono (Nat.le_max_left _ _) hl⟩
  obtain ⟨n, hn⟩ := this _ h
  obtain ⟨l, hl⟩ := enterAll_of hn
  exact ⟨n + 1, o :: l, by rw [included, hl]⟩

/-- Without reachable star cycles the recursion ends. -/
theorem included_terminates {G : Graph N} {a : Fin N}
    (hc : ¬ ∃ k, Reach G a k ∧ Relation.TransGen (StarEdge G) k k) :
    ∃ n l, included G n [] (.orig a) = some l := by
  let R : Fin N → Fin N → Prop := fun b c => Relation.TransGen (StarEdge G) c b ∧ Reach G a c
  have hirr : Std.Irrefl R := ⟨fun b hb => hc ⟨b, hb.2, hb.1⟩⟩
  have htr : IsTrans (Fin N) R := ⟨fun b c d h1 h2 => ⟨h2.1.trans h1.1, h2.2⟩⟩
  have hwf : WellFounded R := Finite.wellFounded_of_trans_of_irrefl R
  have key : ∀ (k : Nat) (m : Fin N) (ex : List (Obj N)) (o : Obj N), o.mod = m → Reach G a m →
      freshCount G (o :: ex) ≤ k → ∃ n l, included G n ex o = some l := by
    intro k
    induction k using Nat.strong_induction_on with
    | _ k ihk =>
      intro m
      induction m using hwf.induction with
      | _ m ihm =>
        intro ex o hom hr hk
        refine included_fuel _ _ ?_
        intro e he
        have hr' : Reach G a e.mod := hr.tail ⟨e, hom ▸ he, rfl⟩
        cases e with
        | star j =>
          exact ihm j ⟨.single (hom ▸ he), hr⟩ (o :: ex) (.orig j) rfl hr'
            (Nat.le_trans (freshCount_le G _ _) hk)
        | view v j =>
          by_cases hin : Obj.copy v j ∈ o :: ex
          · exact ⟨0, [], by rw [enter, if_pos hin]⟩
          · have hlt := freshCount_lt G (o :: ex) (.copy v j) (mem_allCopies he) hin
            obtain ⟨n, l, h⟩ := ihk _ (by omega : freshCount G (.copy v j :: o :: ex) < k) j
              (o :: ex) (.copy v j) rfl hr' (Nat.le_refl _)
            exact ⟨n, l, by rw [enter, if_neg hin]; exact h⟩
  exact key _ a [] (.orig a) rfl .refl (Nat.le_refl _)

/-! ### Translation of global statements terminates -/

def unseen (stack : List (Fin N)) : Nat := ((Finset.univ : Finset (Fin N)).filter (· ∉ stack)).card

theorem unseen_le (stack : List (Fin N)) (m : Fin N) : unseen (m :: stack) ≤ unseen stack := by
  apply Finset.card_le_card
  intro x hx
  simp only [Finset.mem_filter, List.mem_cons, not_or] at hx ⊢
  exact ⟨hx.1, hx.2.2⟩

theorem unseen_lt (stack : List (Fin N)) (m : Fin N) (h : m ∉ stack) :
    unseen (m :: stack) < unseen stack := by
  apply Finset.card_lt_card
  constructor
  · intro x hx
    simp only [Finset.mem_filter, List.mem_cons, not_or] at hx ⊢
    exact ⟨hx.1, hx.2.2⟩
  · intro hss
    have := hss (x := m) (by simp [h])
    simp at this

theorem trStmts_some {rec : List (Fin N) → Fin N → Option (List (TStmt N))} (cur : Fin N)
    (ss : List (Stmt N)) : ∀ stack : List (Fin N),
    (∀ st m, m ∉ st → unseen st ≤ unseen stack → ∃ c, rec (m :: st) m = some c) →
    ∃ c, trStmts rec stack cur ss = some c := by
  induction ss with
  | nil => intro _ _; exact ⟨[], rfl⟩
  | cons s r ih =>
    intro stack hrec
    cases s with
    | act k => obtain ⟨c, hc⟩ := ih stack hrec; exact ⟨_, by rw [trStmts, hc]; rfl⟩
    | define k => obtain ⟨c, hc⟩ := ih stack hrec; exact ⟨_, by rw [trStmts, hc]; rfl⟩
    | use k => obtain ⟨c, hc⟩ := ih stack hrec; exact ⟨_, by rw [trStmts, hc]; rfl⟩
    | imp m b =>
      rw [trStmts]
      have hle : unseen (if cur ∈ stack then stack else cur :: stack) ≤ unseen stack := by
        split
        · exact Nat.le_refl _
        · exact unseen_le _ _
      generalize (if cur ∈ stack then stack else cur :: stack) = st at hle
      obtain ⟨c, hc⟩ := ih st fun st' m' h1 h2 => hrec st' m' h1 (by omega)
      rw [hc]
      split
      · exact ⟨_, rfl⟩
      · rename_i hm
        obtain ⟨c', hc'⟩ := hrec st m hm hle
        rw [hc']
        exact ⟨_, rfl⟩

theorem trModule_some (P : Fin N → List (Stmt N)) (k : Nat) : ∀ (stack : List (Fin N)) (m : Fin N),
    unseen stack ≤ k → ∃ c, trModule P (k + 1) stack m = some c := by
  induction k with
  | zero =>
    intro stack m hk
    exact trStmts_some _ _ _ fun st m' h1 h2 => by have := unseen_lt st m' h1; omega
  | succ k ih =>
    intro stack m hk
    exact trStmts_some _ _ _ fun st m' h1 h2 => ih _ _ (by have := unseen_lt st m' h1; omega)

/-! ### Correspondence of executions -/

/-- The Python instance a module of the encoding stands for. -/
def inst (main m : Fin N) : Inst N := if m = main then .script else .mod m

theorem inst_inj (main : Fin N) {m m' : Fin N} : inst main m = inst main m' ↔ m = m' := by
  unfold inst
  by_cases h1 : m = main <;> by_cases h2 : m' = main <;> simp [h1, h2]
  exact fun h => h2 h.symm

theorem inst_file (main m : Fin N) : (inst main m).file main = m := by
  unfold inst
  split
  · rename_i h; rw [h]; rfl
  · rfl

structure Rel (main : Fin N) (σ : St (Inst N) N) (τ : St (Fin N) N) : Prop where
  loaded : ∀ m, σ.loaded (inst main m) = τ.loaded m
  names : ∀ m x, σ.names (inst main m) x = τ.names m x
  trace : σ.trace = τ.trace

theorem Rel.emit {main : Fin N} {σ τ} (h : Rel main σ τ) (m k) :
    Rel main (σ.emit ((inst main m).file main) k) (τ.emit m k) :=
  ⟨h.loaded, h.names, by simp [St.emit, h.trace, inst_file]⟩

theorem Rel.addName {main : Fin N} {σ τ} (h : Rel main σ τ) (m x) :
    Rel main (σ.addName (inst main m) x) (τ.addName m x) :=
  ⟨h.loaded, by intro m' y; simp [St.addName, inst_inj, h.names], h.trace⟩

theorem Rel.load {main : Fin N} {σ τ} (h : Rel main σ τ) (m) :
    Rel main (σ.load (inst main m)) (τ.load m) :=
  ⟨by intro m'; simp [St.load, inst_inj, h.loaded], h.names, h.trace⟩

theorem Rel.union {main : Fin N} {σ τ} (h : Rel main σ τ) (m m') :
    Rel main (σ.union (inst main m) (inst main m')) (τ.union m m') :=
  ⟨h.loaded, by intro k y; simp [St.union, inst_inj, h.names], h.trace⟩

theorem execList_append (τ : St (Fin N) N) (a b : List (TStmt N)) :
    execList τ (a ++ b) = match execList τ a with
      | .ok τ' => execList τ' b
      | .fail t => .fail t := by
  induction a generalizing τ with
  | nil => rfl
  | cons s a ih =>
    rw [List.cons_append, execList, execList]
    cases exec τ s with
    | ok τ' => exact ih τ'
    | fail t => rfl

theorem bind_rel {main : Fin N} (cur m : Fin N) (b : Bind) (σ : St (Inst N) N) (τ : St (Fin N) N)
    (h : Rel main σ τ) :
    match execList τ (trBind cur m b) with
    | .ok τ' => τ'.loaded = τ.loaded ∧
        ∃ σ', pyBind (inst main cur) (inst main m) σ b = some σ' ∧ Rel main σ' τ'
    | .fail t => pyBind (inst main cur) (inst main m) σ b = none ∧ t = σ.trace := by
  cases b with
  | none => exact ⟨rfl, σ, by rw [pyBind], h⟩
  | all => exact ⟨rfl, _, by rw [pyBind], h.union _ _⟩
  | names l =>
    induction l generalizing σ τ with
    | nil => exact ⟨rfl, σ, by rw [pyBind], h⟩
    | cons p l ih =>
      obtain ⟨x, y⟩ := p
      have e : trBind cur m (.names ((x, y) :: l)) =
          .assertName m x :: .define cur y :: trBind cur m (.names l) := rfl
      rw [e, execList, exec, pyBind, h.names]
      cases hx : τ.names m x with
      | false => exact ⟨by simp, h.trace.symm⟩
      | true =>
        simp only [if_true]
        rw [execList, exec]
        have := ih _ _ (h.addName cur y)
        revert this
        simp only []
        cases execList (τ.addName cur y) (trBind cur m (.names l)) with
        | ok τ' => exact fun h => h
        | fail t => exact fun h => h

/-- Executing the encoding of a list of statements is a Python execution of the list. -/
theorem stmts_rel {P : Fin N → List (Stmt N)} {main : Fin N} (hmain : ∀ m, ¬ imports main (P m))
    (rec : List (Fin N) → Fin N → Option (List (TStmt N)))
    (hrec : ∀ st m c, m ≠ main → m ∈ st → rec st m = some c → ∀ σ τ, Rel main σ τ →
      (∀ k ∈ st, τ.loaded k = true) →
      match execList τ c with
      | .ok τ' => (∀ k, τ.loaded k = true → τ'.loaded k = true) ∧
          ∃ σ', Py P main (inst main m) σ (P m) (.ok σ') ∧ Rel main σ' τ'
      | .fail t => Py P main (inst main m) σ (P m) (.fail t))
    (cur : Fin N) (ss : List (Stmt N)) (hss : ¬ imports main ss) :
    ∀ st c, trStmts rec st cur ss = some c → ∀ σ τ, Rel main σ τ →
      (∀ k ∈ cur :: st, τ.loaded k = true) →
      match execList τ c with
      | .ok τ' => (∀ k, τ.loaded k = true → τ'.loaded k = true) ∧
          ∃ σ', Py P main (inst main cur) σ ss (.ok σ') ∧ Rel main σ' τ'
      | .fail t => Py P main (inst main cur) σ ss (.fail t) := by
  induction ss with
  | nil =>
    intro st c hc σ τ hr hl
    rw [trStmts] at hc
    cases hc
    exact ⟨fun _ h => h, σ, .nil, hr⟩
  | cons s r ih =>
    have hss' : ¬ imports main r := fun ⟨b, hb⟩ => hss ⟨b, List.mem_cons_of_mem _ hb⟩
    have ih := ih hss'
    intro st c hc σ τ hr hl
    cases s with
    | act k =>
      rw [trStmts] at hc
      obtain ⟨c', hc', rfl⟩ := Option.map_eq_some_iff.1 hc
      rw [execList, exec]
      have := ih st c' hc' _ _ (hr.emit cur k) hl
      revert this
      simp only []
      cases execList (τ.emit cur k) c' with
      | ok τ' => exact fun ⟨a, σ', b, c⟩ => ⟨a, σ', .act b, c⟩
      | fail t => exact fun h => .act h
    | define x =>
      rw [trStmts] at hc
      obtain ⟨c', hc', rfl⟩ := Option.map_eq_some_iff.1 hc
      rw [execList, exec]
      have := ih st c' hc' _ _ (hr.addName cur x) hl
      revert this
      simp only []
      cases execList (τ.addName cur x) c' with
      | ok τ' => exact fun ⟨a, σ', b, c⟩ => ⟨a, σ', .define b, c⟩
      | fail t => exact fun h => .define h
    | use x =>
      rw [trStmts] at hc
      obtain ⟨c', hc', rfl⟩ := Option.map_eq_some_iff.1 hc
      rw [execList, exec]
      cases hx : τ.names cur x with
      | false =>
        simp only [Bool.false_eq_true, if_false]
        rw [← hr.trace]
        exact .nameError ((hr.names cur x).trans hx)
      | true =>
        simp only [if_true]
        have := ih st c' hc' _ _ hr hl
        revert this
        cases execList τ c' with
        | ok τ' => exact fun ⟨a, σ', b, c⟩ => ⟨a, σ', .use ((hr.names cur x).trans hx) b, c⟩
        | fail t => exact fun h => .use ((hr.names cur x).trans hx) h
    | imp m b =>
      have hm : m ≠ main := fun e => hss ⟨b, by rw [e]; simp⟩
      have him : inst main m = .mod m := by simp [inst, hm]
      rw [trStmts] at hc
      have hst : ∀ k ∈ (if cur ∈ st then st else cur :: st), τ.loaded k = true := by
        intro k hk
        split at hk
        · exact hl k (by simp [hk])
        · exact hl k hk
      generalize (if cur ∈ st then st else cur :: st) = st' at hc hst
      -- what happens after the imported module has been executed
      have rest : ∀ (c' : List (TStmt N)), trStmts rec st' cur r = some c' →
          ∀ σ₁ τ₁, Rel main σ₁ τ₁ → (∀ k, τ.loaded k = true → τ₁.loaded k = true) →
          ∀ out, out = execList τ₁ (trBind cur m b ++ c') →
          (∀ σ' o, pyBind (inst main cur) (.mod m) σ₁ b = some σ' →
            Py P main (inst main cur) σ' r o → Py P main (inst main cur) σ (.imp m b :: r) o) →
          (pyBind (inst main cur) (.mod m) σ₁ b = none →
            Py P main (inst main cur) σ (.imp m b :: r) (.fail σ₁.trace)) →
          match out with
          | .ok τ' => (∀ k, τ.loaded k = true → τ'.loaded k = true) ∧
              ∃ σ', Py P main (inst main cur) σ (.imp m b :: r) (.ok σ') ∧ Rel main σ' τ'
          | .fail t => Py P main (inst main cur) σ (.imp m b :: r) (.fail t) := by
        intro c' hc' σ₁ τ₁ hr₁ hmono out hout hok hfail
        rw [execList_append] at hout
        have hb := bind_rel cur m b σ₁ τ₁ hr₁
        rw [him] at hb
        cases hbe : execList τ₁ (trBind cur m b) with
        | fail t =>
          rw [hbe] at hout hb
          rw [hout]
          rw [hb.2]
          exact hfail hb.1
        | ok τ₂ =>
          rw [hbe] at hout hb
          obtain ⟨hl2, σ₂, hp, hr₂⟩ := hb
          have h3 := ih st' c' hc' σ₂ τ₂ hr₂ (by
            intro k hk
            rw [hl2]
            rcases List.mem_cons.1 hk with rfl | hk
            · exact hmono _ (hl k (by simp))
            · exact hmono _ (hst k hk))
          simp only [] at hout
          rw [hout]
          revert h3
          cases execList τ₂ c' with
          | ok τ₃ =>
            rintro ⟨a, σ', p, q⟩
            exact ⟨fun k hk => a k (by rw [hl2]; exact hmono k hk), σ', hok _ _ hp p, q⟩
          | fail t => exact fun p => hok _ _ hp p
      split at hc
      · rename_i hmem
        obtain ⟨c', hc', rfl⟩ := Option.map_eq_some_iff.1 hc
        have hlm : τ.loaded m = true := hst m hmem
        have hlp : σ.loaded (.mod m) = true := by rw [← him, hr.loaded, hlm]
        rw [execList, exec, hlm]
        simp only [if_true]
        exact rest c' hc' σ τ hr (fun _ h => h) _ rfl (fun σ' o h1 h2 => .cached hlp h1 h2)
          (fun h1 => .cachedError hlp h1)
      · rename_i hmem
        cases hbody : rec (m :: st') m with
        | none => rw [hbody] at hc; cases hc
        | some body =>
          rw [hbody] at hc
          obtain ⟨c', hc', rfl⟩ := Option.map_eq_some_iff.1 hc
          rw [execList, exec]
          cases hlm : τ.loaded m with
          | true =>
            have hlp : σ.loaded (.mod m) = true := by rw [← him, hr.loaded, hlm]
            simp only [if_true]
            exact rest c' hc' σ τ hr (fun _ h => h) _ rfl (fun σ' o h1 h2 => .cached hlp h1 h2)
              (fun h1 => .cachedError hlp h1)
          | false =>
            have hlp : σ.loaded (.mod m) = false := by rw [← him, hr.loaded, hlm]
            simp only [Bool.false_eq_true, if_false]
            rw [execList, exec]
            simp only []
            have hmono1 : ∀ k, τ.loaded k = true → (τ.load m).loaded k = true := by
              intro k hk
              simp only [St.load]
              split
              · rfl
              · exact hk
            have hb := hrec (m :: st') m body hm (by simp) hbody (σ.load (inst main m)) (τ.load m)
              (hr.load m) (by
                intro k hk
                rcases List.mem_cons.1 hk with rfl | hk
                · simp [St.load]
                · exact hmono1 k (hst k hk))
            rw [him] at hb
            cases hbe : execList (τ.load m) body with
            | fail t =>
              rw [hbe] at hb
              exact .loadError hlp hb
            | ok τ₁ =>
              rw [hbe] at hb
              obtain ⟨hmono2, σ₁, hp, hr₁⟩ := hb
              exact rest c' hc' σ₁ τ₁ hr₁ (fun k hk => hmono2 k (hmono1 k hk)) _ rfl
                (fun σ' o h1 h2 => .load hlp hp h1 h2) (fun h1 => .loadBindError hlp hp h1)

theorem module_rel {P : Fin N → List (Stmt N)} {main : Fin N} (hmain : ∀ m, ¬ imports main (P m))
    (n : Nat) : ∀ st m c, trModule P n st m = some c → ∀ σ τ, Rel main σ τ →
      (∀ k ∈ m :: st, τ.loaded k = true) →
      match execList τ c with
      | .ok τ' => (∀ k, τ.loaded k = true → τ'.loaded k = true) ∧
          ∃ σ', Py P main (inst main m) σ (P m) (.ok σ') ∧ Rel main σ' τ'
      | .fail t => Py P main (inst main m) σ (P m) (.fail t) := by
  induction n with
  | zero => intro st m c h; cases h
  | succ n ih =>
    intro st m c hc σ τ hr hl
    refine stmts_rel hmain (trModule P n) ?_ m (P m) (hmain m) st c hc σ τ hr hl
    intro st' m' c' _ hm' hc' σ' τ' hr' hl'
    exact ih st' m' c' hc' σ' τ' hr' (by
      intro k hk
      rcases List.mem_cons.1 hk with rfl | hk
      · exact hl' _ hm'
      · exact hl' k hk)

/-- Python's execution is deterministic. -/
theorem py_det {P : Fin N → List (Stmt N)} {main : Fin N} {i σ ss o} (h : Py P main i σ ss o) :
    ∀ {o'}, Py P main i σ ss o' → o = o' := by
  induction h with
  | nil => intro o' h'; cases h'; rfl
  | act _ ih => intro o' h'; cases h' with | act h => exact ih h
  | define _ ih => intro o' h'; cases h' with | define h => exact ih h
  | use hx _ ih =>
    intro o' h'
    cases h' with
    | use _ h => exact ih h
    | nameError hx' => rw [hx] at hx'; cases hx'
  | nameError hx =>
    intro o' h'
    cases h' with
    | use hx' _ => rw [hx] at hx'; cases hx'
    | nameError _ => rfl
  | cached hl hb _ ih =>
    intro o' h'
    cases h' with
    | cached _ hb' h => rw [hb] at hb'; cases hb'; exact ih h
    | cachedError _ hb' => rw [hb] at hb'; cases hb'
    | load hl' => rw [hl] at hl'; cases hl'
    | loadBindError hl' => rw [hl] at hl'; cases hl'
    | loadError hl' => rw [hl] at hl'; cases hl'
  | cachedError hl hb =>
    intro o' h'
    cases h' with
    | cached _ hb' h => rw [hb] at hb'; cases hb'
    | cachedError _ hb' => rfl
    | load hl' => rw [hl] at hl'; cases hl'
    | loadBindError hl' => rw [hl] at hl'; cases hl'
    | loadError hl' => rw [hl] at hl'; cases hl'
  | load hl hp hb _ ih1 ih2 =>
    intro o' h'
    cases h' with
    | cached hl' => rw [hl] at hl'; cases hl'
    | cachedError hl' => rw [hl] at hl'; cases hl'
    | load _ hp' hb' h =>
      have e := ih1 hp'
      cases e
      rw [hb] at hb'; cases hb'
      exact ih2 h
    | loadBindError _ hp' hb' =>
      have e := ih1 hp'
      cases e
      rw [hb] at hb'; cases hb'
    | loadError _ hp' => have e := ih1 hp'; cases e
  | loadBindError hl hp hb ih1 =>
    intro o' h'
    cases h' with
    | cached hl' => rw [hl] at hl'; cases hl'
    | cachedError hl' => rw [hl] at hl'; cases hl'
    | load _ hp' hb' h =>
      have e := ih1 hp'
      cases e
      rw [hb] at hb'; cases hb'
    | loadBindError _ hp' hb' =>
      have e := ih1 hp'
      cases e
      rfl
    | loadError _ hp' => have e := ih1 hp'; cases e
  | loadError hl hp ih1 =>
    intro o' h'
    cases h' with
    | cached hl' => rw [hl] at hl'; cases hl'
    | cachedError hl' => rw [hl] at hl'; cases hl'
    | load _ hp' => have e := ih1 hp'; cases e
    | loadBindError _ hp' => have e := ih1 hp'; cases e
    | loadError _ hp' => have e := ih1 hp'; cases e; rfl

/-! ### At most once -/

/-- Effect of executing the statements `ss` of `cur`, seen through the parts of the trace. -/
def Eff (P : Fin N → List (Stmt N)) (cur : Fin N) (ss : List (Stmt N)) (τ : St (Fin N) N) :
    Out (Fin N) N → Prop
  | .ok τ' => part cur τ'.trace = part cur τ.trace ++ acts ss ∧
      (∀ m, m ≠ cur → τ.loaded m = true → part m τ'.trace = part m τ.trace) ∧
      (∀ m, τ.loaded m = true → τ'.loaded m = true) ∧
      (∀ m, τ.loaded m = false → τ'.loaded m = true → part m τ'.trace = acts (P m)) ∧
      (∀ m, τ'.loaded m = false → part m τ'.trace = [])
  | .fail t => (∃ p, p <+: acts ss ∧ part cur t = part cur τ.trace ++ p) ∧
      (∀ m, m ≠ cur → τ.loaded m = true → part m t = part m τ.trace) ∧
      (∀ m, τ.loaded m = false → part m t <+: acts (P m))

def Clean (τ : St (Fin N) N) : Prop := ∀ m, τ.loaded m = false → part m τ.trace = []

theorem part_emit (m k : Fin N) (x : Nat) (t : List (Fin N × Nat)) :
    part m (t ++ [(k, x)]) = if k = m then part m t ++ [x] else part m t := by
  unfold part
  rw [List.filter_append, List.map_append]
  by_cases h : k = m <;> simp [h]

/-- A step of `cur` that has no effects, followed by the rest. -/
theorem Eff.quiet {P : Fin N → List (Stmt N)} {cur : Fin N} {s : Stmt N} {r : List (Stmt N)}
    {τ τ₁ : St (Fin N) N} {o : Out (Fin N) N} (hs : acts (s :: r) = acts r)
    (ht : τ₁.trace = τ.trace) (hl : τ₁.loaded = τ.loaded) (h : Eff P cur r τ₁ o) :
    Eff P cur (s :: r) τ o := by
  cases o with
  | ok τ' => simpa only [Eff, hs, ht, hl] using h
  | fail t => simpa only [Eff, hs, ht, hl] using h

theorem Eff.failNow {P : Fin N → List (Stmt N)} {cur : Fin N} {ss : List (Stmt N)}
    {τ : St (Fin N) N} (hc : Clean τ) : Eff P cur ss τ (.fail τ.trace) :=
  ⟨⟨[], List.nil_prefix, by simp⟩, fun _ _ _ => rfl, fun m hm => by rw [hc m hm]; exact List.nil_prefix⟩

theorem execBind_eff (cur m : Fin N) (b : Bind) (τ : St (Fin N) N) :
    match execList τ (trBind cur m b) with
    | .ok τ' => τ'.loaded = τ.loaded ∧ τ'.trace = τ.trace
    | .fail t => t = τ.trace := by
  cases b with
  | none => exact ⟨rfl, rfl⟩
  | all => exact ⟨rfl, rfl⟩
  | names l =>
    induction l generalizing τ with
    | nil => exact ⟨rfl, rfl⟩
    | cons p l ih =>
      obtain ⟨x, y⟩ := p
      have e : trBind cur m (.names ((x, y) :: l)) =
          .assertName m x :: .define cur y :: trBind cur m (.names l) := rfl
      rw [e, execList, exec]
      cases hx : τ.names m x with
      | false => exact rfl
      | true =>
        simp only [if_true]
        rw [execList, exec]
        exact ih (τ.addName cur y)

theorem stmts_eff {P : Fin N → List (Stmt N)}
    (rec : List (Fin N) → Fin N → Option (List (TStmt N)))
    (hrec : ∀ st m c, m ∈ st → rec st m = some c → ∀ τ, Clean τ →
      (∀ k ∈ st, τ.loaded k = true) → Eff P m (P m) τ (execList τ c))
    (cur : Fin N) (ss : List (Stmt N)) :
    ∀ st c, trStmts rec st cur ss = some c → ∀ τ, Clean τ →
      (∀ k ∈ cur :: st, τ.loaded k = true) → Eff P cur ss τ (execList τ c) := by
  induction ss with
  | nil =>
    intro st c hc τ hcl hl
    rw [trStmts] at hc
    cases hc
    exact ⟨by simp [acts], fun _ _ _ => rfl, fun _ h => h,
      fun m h1 h2 => (by rw [h1] at h2; cases h2), hcl⟩
  | cons s r ih =>
    intro st c hc τ hcl hl
    cases s with
    | act k =>
      rw [trStmts] at hc
      obtain ⟨c', hc', rfl⟩ := Option.map_eq_some_iff.1 hc
      rw [execList, exec]
      have hcl' : Clean (τ.emit cur k) := by
        intro m hm
        have hne : cur ≠ m := by
          rintro rfl
          have := hl cur (by simp)
          rw [show (τ.emit cur k).loaded cur = τ.loaded cur from rfl, this] at hm
          cases hm
        rw [show (τ.emit cur k).trace = τ.trace ++ [(cur, k)] from rfl, part_emit, if_neg hne]
        exact hcl m hm
      have h := ih st c' hc' _ hcl' hl
      have e1 : part cur (τ.emit cur k).trace = part cur τ.trace ++ [k] := by
        rw [show (τ.emit cur k).trace = τ.trace ++ [(cur, k)] from rfl, part_emit, if_pos rfl]
      have e2 : ∀ m, m ≠ cur → part m (τ.emit cur k).trace = part m τ.trace := by
        intro m hm
        rw [show (τ.emit cur k).trace = τ.trace ++ [(cur, k)] from rfl, part_emit,
          if_neg (Ne.symm hm)]
      simp only []
      revert h
      cases execList (τ.emit cur k) c' with
      | ok τ' =>
        rintro ⟨a1, a2, a3, a4, a5⟩
        exact ⟨by rw [a1, e1]; simp [acts], fun m h1 h2 => by rw [a2 m h1 h2, e2 m h1], a3, a4, a5⟩
      | fail t =>
        rintro ⟨⟨p, a0, a1⟩, a2, a3⟩
        exact ⟨⟨k :: p, by simpa [acts] using a0, by rw [a1, e1]; simp⟩,
          fun m h1 h2 => by rw [a2 m h1 h2, e2 m h1], a3⟩
    | define x =>
      rw [trStmts] at hc
      obtain ⟨c', hc', rfl⟩ := Option.map_eq_some_iff.1 hc
      rw [execList, exec]
      exact Eff.quiet rfl rfl rfl (ih st c' hc' (τ.addName cur x) hcl hl)
    | use x =>
      rw [trStmts] at hc
      obtain ⟨c', hc', rfl⟩ := Option.map_eq_some_iff.1 hc
      rw [execList, exec]
      cases hx : τ.names cur x with
      | false => exact Eff.failNow hcl
      | true =>
        simp only [if_true]
        exact Eff.quiet rfl rfl rfl (ih st c' hc' τ hcl hl)
    | imp m b =>
      rw [trStmts] at hc
      have hst : ∀ k ∈ (if cur ∈ st then st else cur :: st), τ.loaded k = true := by
        intro k hk
        split at hk
        · exact hl k (by simp [hk])
        · exact hl k hk
      have hcur : cur ∈ (if cur ∈ st then st else cur :: st) := by split <;> simp_all
      generalize (if cur ∈ st then st else cur :: st) = st' at hc hst hcur
      have rest : ∀ c', trStmts rec st' cur r = some c' → ∀ τ₁, Clean τ₁ →
          (∀ k ∈ cur :: st', τ₁.loaded k = true) →
          Eff P cur (.imp m b :: r) τ₁ (execList τ₁ (trBind cur m b ++ c')) := by
        intro c' hc' τ₁ hcl₁ hl₁
        rw [execList_append]
        have hb := execBind_eff cur m b τ₁
        cases hbe : execList τ₁ (trBind cur m b) with
        | fail t =>
          rw [hbe] at hb
          simp only [] at hb ⊢
          rw [hb]
          exact Eff.failNow hcl₁
        | ok τ₂ =>
          rw [hbe] at hb
          exact Eff.quiet rfl hb.2 hb.1 (ih st' c' hc' τ₂
            (by intro m hm; rw [hb.2]; exact hcl₁ m (by rw [← hb.1]; exact hm))
            (by intro k hk; rw [hb.1]; exact hl₁ k hk))
      have hl' : ∀ k ∈ cur :: st', τ.loaded k = true := by
        intro k hk
        rcases List.mem_cons.1 hk with rfl | hk
        · exact hl _ (by simp)
        · exact hst k hk
      split at hc
      · rename_i hmem
        obtain ⟨c', hc', rfl⟩ := Option.map_eq_some_iff.1 hc
        rw [execList, exec, hst m hmem]
        simp only [if_true]
        exact rest c' hc' τ hcl hl'
      · rename_i hmem
        cases hbody : rec (m :: st') m with
        | none => rw [hbody] at hc; cases hc
        | some body =>
          rw [hbody] at hc
          obtain ⟨c', hc', rfl⟩ := Option.map_eq_some_iff.1 hc
          rw [execList, exec]
          cases hlm : τ.loaded m with
          | true =>
            simp only [if_true]
            exact rest c' hc' τ hcl hl'
          | false =>
            simp only [Bool.false_eq_true, if_false]
            rw [execList, exec]
            simp only []
            have hmc : m ≠ cur := fun e => hmem (e ▸ hcur)
            have hld : ∀ k, k ≠ m → (τ.load m).loaded k = τ.loaded k := by
              intro k hk; simp [St.load, hk]
            have hldm : (τ.load m).loaded m = true := by simp [St.load]
            have htr : (τ.load m).trace = τ.trace := rfl
            have hpm : part m τ.trace = [] := hcl m hlm
            have hb := hrec (m :: st') m body (by simp) hbody (τ.load m)
              (by
                intro k hk
                have hkm : k ≠ m := by rintro rfl; rw [hldm] at hk; cases hk
                rw [hld k hkm] at hk
                exact hcl k hk)
              (by
                intro k hk
                rcases List.mem_cons.1 hk with hk | hk
                · rw [hk]; exact hldm
                · have hkm : k ≠ m := fun e => hmem (e ▸ hk)
                  rw [hld k hkm]; exact hst k hk)
            cases hbe : execList (τ.load m) body with
            | fail t =>
              rw [hbe] at hb
              obtain ⟨⟨p, a0, a1⟩, a2, a3⟩ := hb
              simp only []
              have hcurl : τ.loaded cur = true := hl _ (by simp)
              refine ⟨⟨[], List.nil_prefix, ?_⟩, ?_, ?_⟩
              · rw [a2 cur (Ne.symm hmc) (by rw [hld _ (Ne.symm hmc)]; exact hcurl), htr]; simp
              · intro k _ hk
                have hkm : k ≠ m := by rintro rfl; rw [hlm] at hk; cases hk
                rw [a2 k hkm (by rw [hld _ hkm]; exact hk), htr]
              · intro k hk
                by_cases hkm : k = m
                · subst hkm
                  rw [a1, htr, hpm]
                  simpa using a0
                · exact a3 k (by rw [hld _ hkm]; exact hk)
            | ok τ₁ =>
              rw [hbe] at hb
              obtain ⟨a1, a2, a3, a4, a5⟩ := hb
              simp only []
              have a1' : part m τ₁.trace = acts (P m) := by rw [a1, htr, hpm]; rfl
              have mono : ∀ k, τ.loaded k = true → τ₁.loaded k = true := by
                intro k hk
                have hkm : k ≠ m := by rintro rfl; rw [hlm] at hk; cases hk
                exact a3 k (by rw [hld _ hkm]; exact hk)
              have same : ∀ k, τ.loaded k = true → part k τ₁.trace = part k τ.trace := by
                intro k hk
                have hkm : k ≠ m := by rintro rfl; rw [hlm] at hk; cases hk
                rw [a2 k hkm (by rw [hld _ hkm]; exact hk), htr]
              have new : ∀ k, τ.loaded k = false → τ₁.loaded k = true →
                  part k τ₁.trace = acts (P k) := by
                intro k h1 h2
                by_cases hkm : k = m
                · subst hkm; exact a1'
                · exact a4 k (by rw [hld _ hkm]; exact h1) h2
              have h := rest c' hc' τ₁ a5 (fun k hk => mono k (hl' k hk))
              have hcurl : τ.loaded cur = true := hl _ (by simp)
              revert h
              cases execList τ₁ (trBind cur m b ++ c') with
              | ok τ' =>
                rintro ⟨b1, b2, b3, b4, b5⟩
                refine ⟨by rw [b1, same cur hcurl], ?_, fun k hk => b3 k (mono k hk), ?_, b5⟩
                · intro k h1 h2
                  rw [b2 k h1 (mono k h2), same k h2]
                · intro k h1 h2
                  cases h3 : τ₁.loaded k with
                  | true =>
                    have hkc : k ≠ cur := by rintro rfl; rw [hcurl] at h1; cases h1
                    rw [b2 k hkc h3, new k h1 h3]
                  | false => exact b4 k h3 h2
              | fail t =>
                rintro ⟨⟨p, b0, b1⟩, b2, b3⟩
                refine ⟨⟨p, b0, by rw [b1, same cur hcurl]⟩, ?_, ?_⟩
                · intro k h1 h2
                  rw [b2 k h1 (mono k h2), same k h2]
                · intro k h1
                  cases h3 : τ₁.loaded k with
                  | true =>
                    have hkc : k ≠ cur := by rintro rfl; rw [hcurl] at h1; cases h1
                    rw [b2 k hkc h3, new k h1 h3]
                  | false => exact b3 k h3

theorem module_eff {P : Fin N → List (Stmt N)} (n : Nat) : ∀ st m c, trModule P n st m = some c →
    ∀ τ, Clean τ → (∀ k ∈ m :: st, τ.loaded k = true) → Eff P m (P m) τ (execList τ c) := by
  induction n with
  | zero => intro st m c h; cases h
  | succ n ih =>
    intro st m c hc τ hcl hl
    refine stmts_eff (trModule P n) ?_ m (P m) st c hc τ hcl hl
    intro st' m' c' hm' hc' τ' hcl' hl'
    exact ih st' m' c' hc' τ' hcl' (by
      intro k hk
      rcases List.mem_cons.1 hk with rfl | hk
      · exact hl' _ hm'
      · exact hl' k hk)

end Nagini.Imports
