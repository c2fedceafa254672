import Verif.Spec.Placement
import Verif.Lemmas.Body
/-!
Lemmas about the collection and the positions of contracts.
-/
namespace Nagini.Placement

open Nagini.Body (Fn Nm)

theorem seqv_some {a b : Option (List Rec)} {r : List Rec} :
    seqv a b = some r ↔ ∃ x y, a = some x ∧ b = some y ∧ r = x ++ y := by
  unfold seqv
  cases a <;> cases b <;> simp [eq_comm]

theorem kindOf_iff {n : Nm} {k : Kind} : kindOf n = some k ↔ n = k.nm := by
  cases n <;> cases k <;> simp [kindOf, Kind.nm]

theorem contractOf_iff {f : Fn} {k : Kind} : contractOf f = some k ↔ f = .name k.nm := by
  cases f <;> simp [contractOf, kindOf_iff]

mutual
theorem plainE_iff : ∀ (e : E), plainE e = true ↔ Plain e
  | .atom n => by
    constructor
    · intro _ k as h; cases h
    · intro _; rw [plainE]
  | .op n args => by
    rw [plainE, plainEs_iff args]
    constructor
    · intro h k as ho
      cases ho with
      | part _ _ e _ _ he ho => exact h e he k as ho
    · intro h e he k as ho
      exact h k as (.part n args e k as he ho)
  | .call f args => by
    rw [plainE, Bool.and_eq_true, plainEs_iff args]
    constructor
    · intro ⟨h1, h2⟩ k as ho
      cases ho with
      | here =>
        rw [(contractOf_iff (k := k)).2 rfl] at h1
        cases h1
      | arg _ _ e _ _ he ho => exact h2 e he k as ho
    · intro h
      refine ⟨?_, fun e he k as ho => h k as (.arg f args e k as he ho)⟩
      cases hc : contractOf f with
      | none => rfl
      | some k =>
        rw [contractOf_iff] at hc
        subst hc
        exact absurd (OccE.here k args) (h k args)
theorem plainEs_iff : ∀ (es : List E), plainEs es = true ↔ ∀ e ∈ es, Plain e
  | [] => by simp [plainEs]
  | e :: es => by
    rw [plainEs, Bool.and_eq_true, plainE_iff e, plainEs_iff es]
    simp
end

mutual
theorem visitE_plain (u : U) (cur : Option Nat) : ∀ (e : E), plainE e = true →
    visitE u cur e = some []
  | .atom n, _ => by rw [visitE]
  | .op n args, h => by
    rw [plainE] at h
    rw [visitE, visitEs_plain u cur args h]
  | .call f args, h => by
    rw [plainE, Bool.and_eq_true] at h
    rw [visitE]
    cases hc : contractOf f with
    | none => exact visitEs_plain u cur args h.2
    | some k => rw [hc] at h; cases h.1
theorem visitEs_plain (u : U) (cur : Option Nat) : ∀ (es : List E), plainEs es = true →
    visitEs u cur es = some []
  | [], _ => by rw [visitEs]
  | e :: es, h => by
    rw [plainEs, Bool.and_eq_true] at h
    rw [visitEs, visitE_plain u cur e h.1, visitEs_plain u cur es h.2]
    rfl
end

theorem codeSs_map (ss : List S) : codeSs ss = ss.map codeS := by
  induction ss with
  | nil => rw [codeSs]; rfl
  | cons s ss ih => rw [codeSs, ih]; rfl

theorem codeSs_all {ss : List S} : (codeSs ss).all id = true ↔ ∀ s ∈ ss, codeS s = true := by
  rw [codeSs_map]
  simp

/-- The statement is skipped by `get_body_indices`. -/
def Skipped (s : S) : Prop := ∃ p ∈ Body.order, p (toBody s) = some true

theorem indices_tail {ss : List Body.Stmt} {a b : Nat} (h : Body.bodyIndices ss = some (a, b))
    (i : Nat) (hi : b ≤ i) (s : Body.Stmt) (hs : ss[i]? = some s) :
    Body.isNamed .ensures s = some true := by
  have hil : i < ss.length := (List.getElem?_eq_some_iff.1 hs).1
  unfold Body.bodyIndices at h
  cases hp : Body.phases Body.order ss with
  | none => rw [hp] at h; cases h
  | some start =>
    rw [hp] at h
    simp only [] at h
    split at h
    · cases hl : Body.lead (Body.isNamed .ensures) ss.reverse with
      | none => rw [hl] at h; cases h
      | some k =>
        rw [hl] at h
        simp only [Option.map_some, Option.some.injEq, Prod.mk.injEq] at h
        have hk := Body.lead_le hl
        simp only [List.length_reverse] at hk
        refine Body.lead_true hl (ss.length - 1 - i) (by omega) s ?_
        rw [List.getElem?_reverse (by omega), ← hs]
        congr 1
        omega
    · simp only [Option.some.injEq, Prod.mk.injEq] at h
      omega

theorem window_split {ss : List S} (h : window ss (codeSs ss) = true) :
    ∃ hd code tl, ss = hd ++ code ++ tl ∧ (∀ s ∈ hd, Skipped s) ∧ (∀ s ∈ code, codeS s = true) ∧
      ∀ s ∈ tl, Skipped s ∧ Body.isNamed .ensures (toBody s) = some true := by
  unfold window at h
  cases hb : Body.bodyIndices (ss.map toBody) with
  | none => rw [hb] at h; cases h
  | some ab =>
    obtain ⟨a, b⟩ := ab
    rw [hb] at h
    simp only [] at h
    have hab := Body.indices_le hb
    simp only [List.length_map] at hab
    refine ⟨ss.take a, (ss.take b).drop a, ss.drop b, ?_, ?_, ?_, ?_⟩
    · have h1 : ss.take a = (ss.take b).take a := by rw [List.take_take, Nat.min_eq_left hab.1]
      rw [h1, List.take_append_drop, List.take_append_drop]
    · intro s hs
      obtain ⟨i, hi⟩ := List.getElem?_of_mem hs
      rw [List.getElem?_take] at hi
      split at hi
      · rename_i hia
        exact Body.indices_outside hb i (.inl hia) (toBody s) (by rw [List.getElem?_map, hi]; rfl)
      · cases hi
    · rw [codeSs_map, ← List.map_take, ← List.map_drop] at h
      intro s hs
      rw [List.all_eq_true] at h
      exact h (codeS s) (List.mem_map_of_mem hs)
    · intro s hs
      obtain ⟨i, hi⟩ := List.getElem?_of_mem hs
      rw [List.getElem?_drop] at hi
      have hm : (ss.map toBody)[b + i]? = some (toBody s) := by rw [List.getElem?_map, hi]; rfl
      exact ⟨Body.indices_outside hb (b + i) (.inr (by omega)) _ hm,
        indices_tail hb (b + i) (by omega) _ hm⟩

theorem skipped_cases {s : S} (hr : regular s = true) (h : Skipped s) :
    s = .str ∨ s = .glob ∨ ∃ (k : Kind) (args : List E), s = .call (.name k.nm) args := by
  obtain ⟨p, hp, h⟩ := h
  have hd : Body.Disguised (toBody s) = false := by
    cases s <;> simp_all [toBody, regular, Body.Disguised]
  have hg := Body.genuine_of_order hd hp h
  cases s with
  | str => exact .inl rfl
  | glob => exact .inr (.inl rfl)
  | call f args =>
    refine .inr (.inr ?_)
    simp only [toBody] at hg
    unfold Body.Genuine at hg
    split at hg <;> rename_i heq <;> try (cases heq; done)
    · cases heq; exact ⟨.invariant, args, rfl⟩
    · cases heq; exact ⟨.requires, args, rfl⟩
    · cases heq; exact ⟨.decreases, args, rfl⟩
    · cases heq; exact ⟨.ensures, args, rfl⟩
    · cases heq; exact ⟨.exsures, args, rfl⟩
    · cases heq; simp [regular] at hr
    · exact hg.elim
  | simple n es => simp [toBody, Body.Genuine] at hg
  | block es a b => simp [toBody, Body.Genuine] at hg
  | whileLoop n c a b => simp [toBody, Body.Genuine] at hg
  | forLoop n t i a b => simp [toBody, Body.Genuine] at hg

theorem stated_contract (cur : Option Nat) (k : Kind) (args : List E) :
    stated cur (.call (.name k.nm) args) = [entry cur k args] := by
  cases k <;> rfl

theorem stated_code {s : S} (cur : Option Nat) (h : codeS s = true) : stated cur s = [] := by
  cases s with
  | call f args =>
    rw [codeS, plainE, Bool.and_eq_true] at h
    cases hc : contractOf f with
    | some k => rw [hc] at h; cases h.1
    | none =>
      cases f with
      | name n => cases n <;> simp_all [contractOf, kindOf, stated]
      | _ => rfl
  | _ => rfl

/-- A contract statement whose argument is plain is entered as it is. -/
theorem visit_contract {u : U} {cur : Option Nat} {k : Kind} {args : List E} {rs : List Rec}
    (h : visitS u cur (.call (.name k.nm) args) = some rs)
    (hp : ∀ r ∈ rs, plainEs r.args = true) :
    rs = [entry cur k args] ∧ allowed u cur k = true ∧ plainEs args = true := by
  rw [visitS, visitE, (contractOf_iff (k := k)).2 rfl] at h
  simp only [] at h
  split at h
  · rename_i ha
    obtain ⟨x, y, hx, hy, rfl⟩ := seqv_some.1 h
    cases hx
    have hargs : plainEs args = true := by
      have := hp (entry cur k args) (by simp)
      cases k <;> exact this
    rw [visitEs_plain u cur args hargs] at hy
    cases hy
    exact ⟨rfl, ha, hargs⟩
  · cases h

mutual
theorem visS (u : U) : ∀ (s : S) (cur : Option Nat) (rs : List Rec), visitS u cur s = some rs →
    (∀ r ∈ rs, plainEs r.args = true) → regular s = true → (codeS s = true ∨ Skipped s) →
    rs = stated cur s ++ inLoops s
  | .str, cur, rs, h, _, _, _ => by rw [visitS] at h; cases h; rfl
  | .glob, cur, rs, h, _, _, _ => by rw [visitS] at h; cases h; rfl
  | .simple n es, cur, rs, h, _, hr, hc => by
    have hc : codeS (.simple n es) = true := by
      rcases hc with hc | hc
      · exact hc
      · rcases skipped_cases hr hc with h | h | ⟨_, _, h⟩ <;> cases h
    rw [codeS] at hc
    rw [visitS, visitEs_plain u cur es hc] at h
    cases h
    rfl
  | .call f args, cur, rs, h, hp, hr, hc => by
    rcases hc with hc | hc
    · rw [stated_code cur hc]
      rw [codeS] at hc
      rw [visitS, visitE_plain u cur _ hc] at h
      cases h
      rfl
    · rcases skipped_cases hr hc with hs | hs | ⟨k, as, hs⟩ <;> cases hs
      rw [(visit_contract h hp).1, stated_contract]
      rfl
  | .block es a b, cur, rs, h, hp, hr, hc => by
    have hc : codeS (.block es a b) = true := by
      rcases hc with hc | hc
      · exact hc
      · rcases skipped_cases hr hc with h | h | ⟨_, _, h⟩ <;> cases h
    rw [codeS, Bool.and_eq_true, Bool.and_eq_true, codeSs_all, codeSs_all] at hc
    rw [regular, Bool.and_eq_true] at hr
    rw [visitS, visitEs_plain u cur es hc.1] at h
    obtain ⟨x, y, hx, hy, rfl⟩ := seqv_some.1 h
    cases hx
    obtain ⟨y1, y2, h1, h2, rfl⟩ := seqv_some.1 hy
    rw [visSs u a cur y1 h1 (fun r hr' => hp r (by simp [hr'])) hr.1 hc.2.1,
      visSs u b cur y2 h2 (fun r hr' => hp r (by simp [hr'])) hr.2 hc.2.2]
    rfl
  | .whileLoop n c a b, cur, rs, h, hp, hr, hc => by
    have hc : codeS (.whileLoop n c a b) = true := by
      rcases hc with hc | hc
      · exact hc
      · rcases skipped_cases hr hc with h | h | ⟨_, _, h⟩ <;> cases h
    rw [codeS, Bool.and_eq_true, Bool.and_eq_true, codeSs_all] at hc
    rw [regular, Bool.and_eq_true] at hr
    rw [visitS, visitE_plain u (some n) c hc.1] at h
    obtain ⟨x, y, hx, hy, rfl⟩ := seqv_some.1 h
    cases hx
    obtain ⟨y1, y2, h1, h2, rfl⟩ := seqv_some.1 hy
    rw [visBody u a n y1 h1 (fun r hr' => hp r (by simp [hr'])) hr.1 (fun s hs => by
        obtain ⟨hd, code, tl, heq, w1, w2, w3⟩ := window_split hc.2.1
        rw [heq] at hs
        simp only [List.mem_append] at hs
        rcases hs with (hs | hs) | hs
        · exact .inr (w1 s hs)
        · exact .inl (w2 s hs)
        · exact .inr (w3 s hs).1),
      visSs u b (some n) y2 h2 (fun r hr' => hp r (by simp [hr'])) hr.2 hc.2.2]
    rfl
  | .forLoop n t i a b, cur, rs, h, hp, hr, hc => by
    have hc : codeS (.forLoop n t i a b) = true := by
      rcases hc with hc | hc
      · exact hc
      · rcases skipped_cases hr hc with h | h | ⟨_, _, h⟩ <;> cases h
    rw [codeS, Bool.and_eq_true, Bool.and_eq_true, Bool.and_eq_true, codeSs_all] at hc
    rw [regular, Bool.and_eq_true] at hr
    rw [visitS, visitE_plain u (some n) t hc.1] at h
    obtain ⟨x, y, hx, hy, rfl⟩ := seqv_some.1 h
    cases hx
    obtain ⟨y1, y2, h1, h2, rfl⟩ := seqv_some.1 hy
    rw [visBody u a n y1 h1 (fun r hr' => hp r (by simp [hr'])) hr.1 (fun s hs => by
        obtain ⟨hd, code, tl, heq, w1, w2, w3⟩ := window_split hc.2.2.1
        rw [heq] at hs
        simp only [List.mem_append] at hs
        rcases hs with (hs | hs) | hs
        · exact .inr (w1 s hs)
        · exact .inl (w2 s hs)
        · exact .inr (w3 s hs).1),
      visSs u b (some n) y2 h2 (fun r hr' => hp r (by simp [hr'])) hr.2 hc.2.2.2]
    rfl
theorem visSs (u : U) : ∀ (ss : List S) (cur : Option Nat) (rs : List Rec),
    visitSs u cur ss = some rs → (∀ r ∈ rs, plainEs r.args = true) → regularL ss = true →
    (∀ s ∈ ss, codeS s = true) → rs = inLoopsL ss
  | [], cur, rs, h, _, _, _ => by rw [visitSs] at h; cases h; rfl
  | s :: ss, cur, rs, h, hp, hr, hc => by
    rw [visitSs] at h
    obtain ⟨x, y, hx, hy, rfl⟩ := seqv_some.1 h
    rw [regularL, Bool.and_eq_true] at hr
    rw [visS u s cur x hx (fun r hr' => hp r (by simp [hr'])) hr.1 (.inl (hc s (by simp))),
      visSs u ss cur y hy (fun r hr' => hp r (by simp [hr'])) hr.2
        (fun t ht => hc t (by simp [ht])), stated_code cur (hc s (by simp))]
    rfl
theorem visBody (u : U) : ∀ (ss : List S) (n : Nat) (rs : List Rec),
    visitSs u (some n) ss = some rs → (∀ r ∈ rs, plainEs r.args = true) → regularL ss = true →
    (∀ s ∈ ss, codeS s = true ∨ Skipped s) → rs = bodyOf n ss
  | [], n, rs, h, _, _, _ => by rw [visitSs] at h; cases h; rfl
  | s :: ss, n, rs, h, hp, hr, hc => by
    rw [visitSs] at h
    obtain ⟨x, y, hx, hy, rfl⟩ := seqv_some.1 h
    rw [regularL, Bool.and_eq_true] at hr
    rw [visS u s (some n) x hx (fun r hr' => hp r (by simp [hr'])) hr.1 (hc s (by simp)),
      visBody u ss n y hy (fun r hr' => hp r (by simp [hr'])) hr.2
        (fun t ht => hc t (by simp [ht]))]
    rfl
end

theorem visTop (u : U) : ∀ (ss : List S) (rs : List Rec),
    visitSs u none ss = some rs → (∀ r ∈ rs, plainEs r.args = true) → regularL ss = true →
    (∀ s ∈ ss, codeS s = true ∨ Skipped s) → rs = written ss := by
  intro ss
  induction ss with
  | nil => intro rs h _ _ _; rw [visitSs] at h; cases h; rfl
  | cons s ss ih =>
    intro rs h hp hr hc
    rw [visitSs] at h
    obtain ⟨x, y, hx, hy, rfl⟩ := seqv_some.1 h
    rw [regularL, Bool.and_eq_true] at hr
    rw [visS u s none x hx (fun r hr' => hp r (by simp [hr'])) hr.1 (hc s (by simp)),
      ih y hy (fun r hr' => hp r (by simp [hr'])) hr.2 (fun t ht => hc t (by simp [ht]))]
    rfl

theorem window_mem {ss : List S} (h : window ss (codeSs ss) = true) :
    ∀ s ∈ ss, codeS s = true ∨ Skipped s := by
  intro s hs
  obtain ⟨hd, code, tl, heq, w1, w2, w3⟩ := window_split h
  rw [heq] at hs
  simp only [List.mem_append] at hs
  rcases hs with (hs | hs) | hs
  · exact .inr (w1 s hs)
  · exact .inl (w2 s hs)
  · exact .inr (w3 s hs).1

theorem visitSs_mem {u : U} {cur : Option Nat} : ∀ {ss : List S} {rs : List Rec},
    visitSs u cur ss = some rs → ∀ s ∈ ss, ∃ x, visitS u cur s = some x ∧ ∀ r ∈ x, r ∈ rs := by
  intro ss
  induction ss with
  | nil => intro rs _ s hs; cases hs
  | cons t ss ih =>
    intro rs h s hs
    rw [visitSs] at h
    obtain ⟨x, y, hx, hy, rfl⟩ := seqv_some.1 h
    rcases List.mem_cons.1 hs with rfl | hs
    · exact ⟨x, hx, fun r hr => by simp [hr]⟩
    · obtain ⟨z, hz, hzr⟩ := ih hy s hs
      exact ⟨z, hz, fun r hr => by simp [hzr r hr]⟩

theorem visitEs_mem {u : U} {cur : Option Nat} : ∀ {es : List E} {rs : List Rec},
    visitEs u cur es = some rs → ∀ e ∈ es, ∃ x, visitE u cur e = some x ∧ ∀ r ∈ x, r ∈ rs := by
  intro ss
  induction ss with
  | nil => intro rs _ s hs; cases hs
  | cons t ss ih =>
    intro rs h s hs
    rw [visitEs] at h
    obtain ⟨x, y, hx, hy, rfl⟩ := seqv_some.1 h
    rcases List.mem_cons.1 hs with rfl | hs
    · exact ⟨x, hx, fun r hr => by simp [hr]⟩
    · obtain ⟨z, hz, hzr⟩ := ih hy s hs
      exact ⟨z, hz, fun r hr => by simp [hzr r hr]⟩

theorem regularL_mem : ∀ {ss : List S}, regularL ss = true → ∀ s ∈ ss, regular s = true := by
  intro ss
  induction ss with
  | nil => intro _ s hs; cases hs
  | cons t ss ih =>
    intro h s hs
    rw [regularL, Bool.and_eq_true] at h
    rcases List.mem_cons.1 hs with rfl | hs
    · exact h.1
    · exact ih h.2 s hs

theorem noStrayL_mem : ∀ {ss : List S}, noStrayL ss = true → ∀ s ∈ ss, noStray s = true := by
  intro ss
  induction ss with
  | nil => intro _ s hs; cases hs
  | cons t ss ih =>
    intro h s hs
    rw [noStrayL, Bool.and_eq_true] at h
    rcases List.mem_cons.1 hs with rfl | hs
    · exact h.1
    · exact ih h.2 s hs

theorem entry_kind (cur : Option Nat) (k : Kind) (args : List E) :
    (entry cur k args).kind = k ∧ (entry cur k args).args = args := by
  cases k <;> exact ⟨rfl, rfl⟩

/-- A contract statement that is visited is entered. -/
theorem visit_entry {u : U} {cur : Option Nat} {k : Kind} {args : List E} {rs : List Rec}
    (h : visitS u cur (.call (.name k.nm) args) = some rs) :
    entry cur k args ∈ rs ∧ allowed u cur k = true := by
  rw [visitS, visitE, (contractOf_iff (k := k)).2 rfl] at h
  simp only [] at h
  split at h
  · rename_i ha
    obtain ⟨x, y, hx, hy, rfl⟩ := seqv_some.1 h
    cases hx
    exact ⟨by simp, ha⟩
  · cases h

theorem named_ensures {k : Kind} {args : List E}
    (h : Body.isNamed .ensures (toBody (.call (.name k.nm) args)) = some true) : k = .ensures := by
  cases k <;> revert h <;> simp [toBody, Body.isNamed, Body.funcName, Body.fnName, Kind.nm]

/-- The statements of the body of a loop without stray contracts. -/
theorem loop_split {u : U} {n : Nat} {a : List S} {y : List Rec}
    (hw : window a (codeSs a) = true) (hr : regularL a = true)
    (hn : a.all (fun s => !methodContract s) = true) (hv : visitSs u (some n) a = some y)
    (hp : ∀ r ∈ y, r.kind = .invariant → plainEs r.args = true) :
    ∃ hd code, a = hd ++ code ∧ (∀ s ∈ hd, LoopHead s) ∧ (∀ s ∈ code, codeS s = true) := by
  obtain ⟨hd, code, tl, heq, w1, w2, w3⟩ := window_split hw
  have contract : ∀ (k : Kind) (args : List E), .call (.name k.nm) args ∈ a → k = .invariant := by
    intro k args hk
    have := List.all_eq_true.1 hn _ hk
    cases k <;> simp [methodContract, Kind.nm] at this ⊢
  have htl : tl = [] := by
    cases tl with
    | nil => rfl
    | cons s tl =>
      have hs : s ∈ a := by rw [heq]; simp
      obtain ⟨h1, h2⟩ := w3 s (by simp)
      rcases skipped_cases (regularL_mem hr s hs) h1 with h | h | ⟨k, args, h⟩ <;> subst h
      · simp [toBody, Body.isNamed, Body.funcName] at h2
      · simp [toBody, Body.isNamed, Body.funcName] at h2
      · have := contract k args hs
        rw [named_ensures h2] at this
        cases this
  subst htl
  refine ⟨hd, code, by rw [heq, List.append_nil], fun s hs => ?_, w2⟩
  have hsa : s ∈ a := by rw [heq]; simp [hs]
  rcases skipped_cases (regularL_mem hr s hsa) (w1 s hs) with h | h | ⟨k, args, h⟩ <;> subst h
  · exact .str
  · exact .glob
  · have := contract k args hsa
    subst this
    obtain ⟨x, hx, hxy⟩ := visitSs_mem hv _ hsa
    have := hp _ (hxy _ (visit_entry hx).1) rfl
    exact .inv args ((plainEs_iff args).1 this)

mutual
theorem code_of (u : U) : ∀ (s : S) (cur : Option Nat) (rs : List Rec), visitS u cur s = some rs →
    (∀ r ∈ rs, r.kind = .invariant → plainEs r.args = true) → regular s = true →
    noStray s = true → codeS s = true → Code s
  | .str, _, _, _, _, _, _, _ => .str
  | .glob, _, _, _, _, _, _, _ => .glob
  | .simple n es, _, _, _, _, _, _, hc => by
    rw [codeS] at hc
    exact .simple n es ((plainEs_iff es).1 hc)
  | .call f args, _, _, _, _, _, _, hc => by
    rw [codeS] at hc
    exact .call f args ((plainE_iff _).1 hc)
  | .block es a b, cur, rs, h, hp, hr, hn, hc => by
    rw [codeS, Bool.and_eq_true, Bool.and_eq_true, codeSs_all, codeSs_all] at hc
    rw [regular, Bool.and_eq_true] at hr
    rw [noStray, Bool.and_eq_true] at hn
    rw [visitS] at h
    obtain ⟨x, y, hx, hy, rfl⟩ := seqv_some.1 h
    obtain ⟨y1, y2, h1, h2, rfl⟩ := seqv_some.1 hy
    exact .block es a b ((plainEs_iff es).1 hc.1)
      (fun s hs => code_ofL u a cur y1 h1 (fun r hr' => hp r (by simp [hr'])) hr.1 hn.1 s hs (hc.2.1 s hs))
      (fun s hs => code_ofL u b cur y2 h2 (fun r hr' => hp r (by simp [hr'])) hr.2 hn.2 s hs (hc.2.2 s hs))
  | .whileLoop n c a b, cur, rs, h, hp, hr, hn, hc => by
    rw [codeS, Bool.and_eq_true, Bool.and_eq_true, codeSs_all] at hc
    rw [regular, Bool.and_eq_true] at hr
    rw [noStray, Bool.and_eq_true, Bool.and_eq_true] at hn
    rw [visitS] at h
    obtain ⟨x, y, hx, hy, rfl⟩ := seqv_some.1 h
    obtain ⟨y1, y2, h1, h2, rfl⟩ := seqv_some.1 hy
    obtain ⟨hd, code, heq, w1, w2⟩ := loop_split hc.2.1 hr.1 hn.1.1 h1
      (fun r hr' => hp r (by simp [hr']))
    have hall := code_ofL u a (some n) y1 h1 (fun r hr' => hp r (by simp [hr'])) hr.1 hn.1.2
    rw [heq]
    exact .whileLoop n c hd code b ((plainE_iff c).1 hc.1) w1
      (fun s hs => hall s (by rw [heq]; simp [hs]) (w2 s hs))
      (fun s hs => code_ofL u b (some n) y2 h2 (fun r hr' => hp r (by simp [hr'])) hr.2 hn.2 s hs (hc.2.2 s hs))
  | .forLoop n t i a b, cur, rs, h, hp, hr, hn, hc => by
    rw [codeS, Bool.and_eq_true, Bool.and_eq_true, Bool.and_eq_true, codeSs_all] at hc
    rw [regular, Bool.and_eq_true] at hr
    rw [noStray, Bool.and_eq_true, Bool.and_eq_true] at hn
    rw [visitS] at h
    obtain ⟨x, y, hx, hy, rfl⟩ := seqv_some.1 h
    obtain ⟨y1, y2, h1, h2, rfl⟩ := seqv_some.1 hy
    obtain ⟨hd, code, heq, w1, w2⟩ := loop_split hc.2.2.1 hr.1 hn.1.1 h1
      (fun r hr' => hp r (by simp [hr']))
    have hall := code_ofL u a (some n) y1 h1 (fun r hr' => hp r (by simp [hr'])) hr.1 hn.1.2
    rw [heq]
    exact .forLoop n t i hd code b ((plainE_iff t).1 hc.1) ((plainE_iff i).1 hc.2.1) w1
      (fun s hs => hall s (by rw [heq]; simp [hs]) (w2 s hs))
      (fun s hs => code_ofL u b (some n) y2 h2 (fun r hr' => hp r (by simp [hr'])) hr.2 hn.2 s hs (hc.2.2.2 s hs))
theorem code_ofL (u : U) : ∀ (ss : List S) (cur : Option Nat) (rs : List Rec),
    visitSs u cur ss = some rs → (∀ r ∈ rs, r.kind = .invariant → plainEs r.args = true) →
    regularL ss = true → noStrayL ss = true → ∀ s ∈ ss, codeS s = true → Code s
  | [], _, _, _, _, _, _ => fun s hs => nomatch hs
  | t :: ss, cur, rs, h, hp, hr, hn => by
    rw [visitSs] at h
    obtain ⟨x, y, hx, hy, rfl⟩ := seqv_some.1 h
    rw [regularL, Bool.and_eq_true] at hr
    rw [noStrayL, Bool.and_eq_true] at hn
    intro s hs hc
    rcases List.mem_cons.1 hs with heq | hs
    · rw [heq] at hc ⊢
      exact code_of u t cur x hx (fun r hr' => hp r (by simp [hr'])) hr.1 hn.1 hc
    · exact code_ofL u ss cur y hy (fun r hr' => hp r (by simp [hr'])) hr.2 hn.2 s hs hc
end

/-- Every occurrence in an expression is entered. -/
theorem occE_visit {u : U} {cur : Option Nat} {e : E} {k : Kind} {as : List E} (ho : OccE e k as) :
    ∀ {rs : List Rec}, visitE u cur e = some rs → entry cur k as ∈ rs := by
  induction ho with
  | here k args =>
    intro rs h
    have h' : visitS u cur (.call (.name k.nm) args) = some rs := by rw [visitS]; exact h
    exact (visit_entry h').1
  | arg f args e k as he _ ih =>
    intro rs h
    rw [visitE] at h
    split at h
    · split at h
      · obtain ⟨x, y, hx, hy, rfl⟩ := seqv_some.1 h
        obtain ⟨z, hz, hzr⟩ := visitEs_mem hy e he
        have := hzr _ (ih hz)
        simp [this]
      · cases h
    · obtain ⟨z, hz, hzr⟩ := visitEs_mem h e he
      exact hzr _ (ih hz)
  | part n args e k as he _ ih =>
    intro rs h
    rw [visitE] at h
    obtain ⟨z, hz, hzr⟩ := visitEs_mem h e he
    exact hzr _ (ih hz)

theorem skipped_shape {s : S} (h : Skipped s) :
    s = .str ∨ s = .glob ∨ ∃ f args, s = .call f args := by
  obtain ⟨p, hp, h⟩ := h
  have hno : ∀ n, p (.other n) ≠ some true := by
    intro n
    simp only [Body.order, List.mem_cons, List.not_mem_nil, or_false] at hp
    rcases hp with rfl | rfl | rfl | rfl | rfl | rfl | rfl | rfl <;>
      simp [Body.isDoc, Body.isGlobal, Body.isIO, Body.isNamed, Body.funcName]
  cases s with
  | str => exact .inl rfl
  | glob => exact .inr (.inl rfl)
  | call f args => exact .inr (.inr ⟨f, args, rfl⟩)
  | simple n es => exact absurd h (hno _)
  | block es a b => exact absurd h (hno _)
  | whileLoop n c a b => exact absurd h (hno _)
  | forLoop n t i a b => exact absurd h (hno _)

/-- Every occurrence in a statement is entered, for some loop. -/
theorem occS_visit {u : U} {s : S} {k : Kind} {as : List E} (ho : OccS s k as) :
    ∀ {cur : Option Nat} {rs : List Rec}, visitS u cur s = some rs →
      (codeS s = true ∨ Skipped s) → ∃ c, entry c k as ∈ rs := by
  induction ho with
  | call f args k as ho =>
    intro cur rs h _
    rw [visitS] at h
    exact ⟨cur, occE_visit ho h⟩
  | simple n es e k as he ho =>
    intro cur rs h _
    rw [visitS] at h
    obtain ⟨z, hz, hzr⟩ := visitEs_mem h e he
    exact ⟨cur, hzr _ (occE_visit ho hz)⟩
  | blockE es a b e k as he ho =>
    intro cur rs h _
    rw [visitS] at h
    obtain ⟨x, y, hx, hy, rfl⟩ := seqv_some.1 h
    obtain ⟨z, hz, hzr⟩ := visitEs_mem hx e he
    have := hzr _ (occE_visit ho hz)
    exact ⟨cur, by simp [this]⟩
  | blockS es a b s k as hs ho ih =>
    intro cur rs h hc
    have hc : codeS (.block es a b) = true := by
      rcases hc with hc | hc
      · exact hc
      · rcases skipped_shape hc with h | h | ⟨_, _, h⟩ <;> cases h
    rw [codeS, Bool.and_eq_true, Bool.and_eq_true, codeSs_all, codeSs_all] at hc
    rw [visitS] at h
    obtain ⟨x, y, hx, hy, rfl⟩ := seqv_some.1 h
    obtain ⟨y1, y2, h1, h2, rfl⟩ := seqv_some.1 hy
    rcases List.mem_append.1 hs with hs | hs
    · obtain ⟨z, hz, hzr⟩ := visitSs_mem h1 s hs
      obtain ⟨c, hc'⟩ := ih hz (.inl (hc.2.1 s hs))
      exact ⟨c, by simp [hzr _ hc']⟩
    · obtain ⟨z, hz, hzr⟩ := visitSs_mem h2 s hs
      obtain ⟨c, hc'⟩ := ih hz (.inl (hc.2.2 s hs))
      exact ⟨c, by simp [hzr _ hc']⟩
  | whileE n c a b k as ho =>
    intro cur rs h _
    rw [visitS] at h
    obtain ⟨x, y, hx, hy, rfl⟩ := seqv_some.1 h
    exact ⟨some n, by simp [occE_visit ho hx]⟩
  | whileS n c a b s k as hs ho ih =>
    intro cur rs h hc
    have hc : codeS (.whileLoop n c a b) = true := by
      rcases hc with hc | hc
      · exact hc
      · rcases skipped_shape hc with h | h | ⟨_, _, h⟩ <;> cases h
    rw [codeS, Bool.and_eq_true, Bool.and_eq_true, codeSs_all] at hc
    rw [visitS] at h
    obtain ⟨x, y, hx, hy, rfl⟩ := seqv_some.1 h
    obtain ⟨y1, y2, h1, h2, rfl⟩ := seqv_some.1 hy
    rcases List.mem_append.1 hs with hs | hs
    · obtain ⟨z, hz, hzr⟩ := visitSs_mem h1 s hs
      obtain ⟨c', hc'⟩ := ih hz (window_mem hc.2.1 s hs)
      exact ⟨c', by simp [hzr _ hc']⟩
    · obtain ⟨z, hz, hzr⟩ := visitSs_mem h2 s hs
      obtain ⟨c', hc'⟩ := ih hz (.inl (hc.2.2 s hs))
      exact ⟨c', by simp [hzr _ hc']⟩
  | forE n t i a b e k as he ho =>
    intro cur rs h hc
    have hc : codeS (.forLoop n t i a b) = true := by
      rcases hc with hc | hc
      · exact hc
      · rcases skipped_shape hc with h | h | ⟨_, _, h⟩ <;> cases h
    rw [codeS, Bool.and_eq_true, Bool.and_eq_true] at hc
    rcases he with rfl | rfl
    · exact absurd ho ((plainE_iff _).1 hc.1 k as)
    · exact absurd ho ((plainE_iff _).1 hc.2.1 k as)
  | forS n t i a b s k as hs ho ih =>
    intro cur rs h hc
    have hc : codeS (.forLoop n t i a b) = true := by
      rcases hc with hc | hc
      · exact hc
      · rcases skipped_shape hc with h | h | ⟨_, _, h⟩ <;> cases h
    rw [codeS, Bool.and_eq_true, Bool.and_eq_true, Bool.and_eq_true, codeSs_all] at hc
    rw [visitS] at h
    obtain ⟨x, y, hx, hy, rfl⟩ := seqv_some.1 h
    obtain ⟨y1, y2, h1, h2, rfl⟩ := seqv_some.1 hy
    rcases List.mem_append.1 hs with hs | hs
    · obtain ⟨z, hz, hzr⟩ := visitSs_mem h1 s hs
      obtain ⟨c', hc'⟩ := ih hz (window_mem hc.2.2.1 s hs)
      exact ⟨c', by simp [hzr _ hc']⟩
    · obtain ⟨z, hz, hzr⟩ := visitSs_mem h2 s hs
      obtain ⟨c', hc'⟩ := ih hz (.inl (hc.2.2.2 s hs))
      exact ⟨c', by simp [hzr _ hc']⟩

/-- In code, only invariants are stated. -/
theorem code_occ {s : S} (h : Code s) : ∀ k as, OccS s k as → k = .invariant := by
  induction h with
  | str => intro k as ho; cases ho
  | glob => intro k as ho; cases ho
  | call f args hp => intro k as ho; cases ho with | call _ _ _ _ ho => exact absurd ho (hp k as)
  | simple n es hp =>
    intro k as ho
    cases ho with | simple _ _ e _ _ he ho => exact absurd ho (hp e he k as)
  | block es a b hp _ _ iha ihb =>
    intro k as ho
    cases ho with
    | blockE _ _ _ e _ _ he ho => exact absurd ho (hp e he k as)
    | blockS _ _ _ s _ _ hs ho =>
      rcases List.mem_append.1 hs with hs | hs
      · exact iha s hs k as ho
      · exact ihb s hs k as ho
  | whileLoop n c hd code orelse hc hh _ _ ihc iho =>
    intro k as ho
    cases ho with
    | whileE _ _ _ _ _ _ ho => exact absurd ho (hc k as)
    | whileS _ _ _ _ s _ _ hs ho =>
      simp only [List.mem_append] at hs
      rcases hs with (hs | hs) | hs
      · cases hh s hs with
        | str => cases ho
        | glob => cases ho
        | inv args hp =>
          cases ho with
          | call _ _ _ _ ho =>
            generalize hf : Fn.name Nm.invariant = f at ho
            cases ho with
            | here => exact (by cases k <;> simp_all [Kind.nm])
            | arg _ _ e _ _ he ho => exact absurd ho (hp e he k as)
      · exact ihc s hs k as ho
      · exact iho s hs k as ho
  | forLoop n t i hd code orelse ht hi hh _ _ ihc iho =>
    intro k as ho
    cases ho with
    | forE _ _ _ _ _ e _ _ he ho =>
      rcases he with rfl | rfl
      · exact absurd ho (ht k as)
      · exact absurd ho (hi k as)
    | forS _ _ _ _ _ s _ _ hs ho =>
      simp only [List.mem_append] at hs
      rcases hs with (hs | hs) | hs
      · cases hh s hs with
        | str => cases ho
        | glob => cases ho
        | inv args hp =>
          cases ho with
          | call _ _ _ _ ho =>
            generalize hf : Fn.name Nm.invariant = f at ho
            cases ho with
            | here => exact (by cases k <;> simp_all [Kind.nm])
            | arg _ _ e _ _ he ho => exact absurd ho (hp e he k as)
      · exact ihc s hs k as ho
      · exact iho s hs k as ho

theorem run_some {u : U} {ss : List S} {rs : List Rec} (h : run u ss = some rs) :
    visitSs u none ss = some rs ∧ bodyOk u ss = true ∧
      ∀ r ∈ rs, checked u r = true → plainEs r.args = true := by
  unfold run at h
  cases hv : visitSs u none ss with
  | none => rw [hv] at h; cases h
  | some x =>
    rw [hv] at h
    simp only [] at h
    split at h
    · rename_i hc
      cases h
      rw [Bool.and_eq_true, List.all_eq_true] at hc
      refine ⟨rfl, hc.1, fun r hr hk => ?_⟩
      have := hc.2 r hr
      rw [hk] at this
      simpa using this
    · cases h

/-- The statements are in the order of the predicates. -/
def SortedBy : List (Body.Stmt → Option Bool) → List Body.Stmt → Prop
  | [], hd => hd = []
  | p :: ps, hd => ∃ a b, hd = a ++ b ∧ (∀ s ∈ a, p s = some true) ∧ SortedBy ps b

theorem SortedBy.drop : ∀ {ps : List (Body.Stmt → Option Bool)} {hd : List Body.Stmt} (j : Nat),
    SortedBy ps hd → SortedBy ps (hd.drop j) := by
  intro ps
  induction ps with
  | nil => intro hd j h; rw [SortedBy] at h ⊢; rw [h, List.drop_nil]
  | cons p ps ih =>
    intro hd j h
    obtain ⟨a, b, rfl, ha, hb⟩ := h
    refine ⟨a.drop j, b.drop (j - a.length), ?_, fun s hs => ha s (List.mem_of_mem_drop hs),
      ih _ hb⟩
    rw [List.drop_append]

theorem phases_ge : ∀ {ps : List (Body.Stmt → Option Bool)} {hd rest : List Body.Stmt} {k : Nat},
    SortedBy ps hd → Body.phases ps (hd ++ rest) = some k → hd.length ≤ k := by
  intro ps
  induction ps with
  | nil => intro hd rest k h _; rw [SortedBy] at h; rw [h]; exact Nat.zero_le _
  | cons p ps ih =>
    intro hd rest k h hk
    obtain ⟨a, b, rfl, ha, hb⟩ := h
    rw [Body.phases, List.append_assoc, Body.lead_append ha] at hk
    cases hl : Body.lead p (b ++ rest) with
    | none => rw [hl] at hk; cases hk
    | some j =>
      rw [hl] at hk
      simp only [Option.map_some] at hk
      have hd1 : (a ++ (b ++ rest)).drop (a.length + j) = (b ++ rest).drop j := by
        rw [List.drop_append]
        simp
      rw [hd1] at hk
      cases hp : Body.phases ps ((b ++ rest).drop j) with
      | none => rw [hp] at hk; cases hk
      | some m =>
        rw [hp] at hk
        simp only [Option.map_some, Option.some.injEq] at hk
        rw [List.drop_append] at hp
        by_cases hj : j ≤ b.length
        · rw [Nat.sub_eq_zero_of_le hj, List.drop_zero] at hp
          have := ih (hb.drop j) hp
          simp only [List.length_drop] at this
          simp only [List.length_append]
          omega
        · simp only [List.length_append]
          omega

theorem lead_total {p : Body.Stmt → Option Bool} : ∀ {ss : List Body.Stmt},
    (∀ s ∈ ss, p s ≠ none) → Body.lead p ss ≠ none := by
  intro ss
  induction ss with
  | nil => intro _; rw [Body.lead]; exact Option.some_ne_none _
  | cons s ss ih =>
    intro h
    rw [Body.lead]
    cases hp : p s with
    | none => exact absurd hp (h s (by simp))
    | some b =>
      cases b with
      | false => exact Option.some_ne_none _
      | true =>
        simp only [ne_eq, Option.map_eq_none_iff]
        exact ih (fun t ht => h t (by simp [ht]))

theorem phases_total : ∀ {ps : List (Body.Stmt → Option Bool)} {ss : List Body.Stmt},
    (∀ s ∈ ss, ∀ p ∈ ps, p s ≠ none) → Body.phases ps ss ≠ none := by
  intro ps
  induction ps with
  | nil => intro ss _; rw [Body.phases]; exact Option.some_ne_none _
  | cons p ps ih =>
    intro ss h
    rw [Body.phases]
    cases hl : Body.lead p ss with
    | none => exact absurd hl (lead_total (fun s hs => h s hs p (by simp)))
    | some k =>
      simp only [ne_eq, Option.map_eq_none_iff]
      exact ih (fun s hs q hq => h s (List.mem_of_mem_drop hs) q (by simp [hq]))

/-- The bounds that `get_body_indices` computes enclose at most the code. -/
theorem indices_within {hd code tl : List Body.Stmt} (hs : SortedBy Body.order hd)
    (hn : ∀ s ∈ hd ++ code ++ tl, Body.funcName s ≠ none)
    (ht : ∀ s ∈ tl, Body.isNamed .ensures s = some true) :
    ∃ a b, Body.bodyIndices (hd ++ code ++ tl) = some (a, b) ∧ hd.length ≤ a ∧
      (a < b → b ≤ hd.length + code.length) := by
  have hnamed : ∀ n, ∀ s ∈ hd ++ code ++ tl, Body.isNamed n s ≠ none := by
    intro n s hs
    unfold Body.isNamed
    simp only [ne_eq, Option.map_eq_none_iff]
    exact hn s hs
  have htot : Body.phases Body.order (hd ++ code ++ tl) ≠ none := by
    refine phases_total (fun s hs p hp => ?_)
    simp only [Body.order, List.mem_cons, List.not_mem_nil, or_false] at hp
    rcases hp with rfl | rfl | rfl | rfl | rfl | rfl | rfl | rfl
    · simp [Body.isDoc]
    · simp [Body.isGlobal]
    · simp [Body.isIO]
    all_goals exact hnamed _ s hs
  unfold Body.bodyIndices
  cases hp : Body.phases Body.order (hd ++ code ++ tl) with
  | none => exact absurd hp htot
  | some start =>
    have hge : hd.length ≤ start := by
      rw [List.append_assoc] at hp
      exact phases_ge hs hp
    simp only []
    split
    · have hrev : (hd ++ code ++ tl).reverse = tl.reverse ++ (hd ++ code).reverse := by simp
      have hl : Body.lead (Body.isNamed .ensures) (hd ++ code ++ tl).reverse ≠ none :=
        lead_total (fun s hs => hnamed _ s (List.mem_reverse.1 hs))
      rw [hrev, Body.lead_append (fun s hs => ht s (List.mem_reverse.1 hs))] at hl ⊢
      cases hj : Body.lead (Body.isNamed .ensures) (hd ++ code).reverse with
      | none => rw [hj] at hl; exact absurd rfl hl
      | some j =>
        refine ⟨start, _, rfl, hge, fun _ => ?_⟩
        simp only [List.length_append, List.length_reverse]
        omega
    · exact ⟨start, _, rfl, hge, fun h => by omega⟩

theorem window_of {hd code tl : List S} (hs : SortedBy Body.order (hd.map toBody))
    (hn : ∀ s ∈ hd ++ code ++ tl, Body.funcName (toBody s) ≠ none)
    (ht : ∀ s ∈ tl, Body.isNamed .ensures (toBody s) = some true)
    (hc : ∀ s ∈ code, codeS s = true) :
    window (hd ++ code ++ tl) (codeSs (hd ++ code ++ tl)) = true := by
  obtain ⟨a, b, hab, h1, h2⟩ := indices_within (code := code.map toBody) (tl := tl.map toBody) hs
    (by
      intro s h
      simp only [← List.map_append] at h
      obtain ⟨t, ht', rfl⟩ := List.mem_map.1 h
      exact hn t ht')
    (by
      intro s h
      obtain ⟨t, ht', rfl⟩ := List.mem_map.1 h
      exact ht t ht')
  simp only [List.length_map] at h1 h2
  unfold window
  rw [List.map_append, List.map_append, hab]
  simp only []
  rw [codeSs_map, List.all_eq_true]
  intro x hx
  obtain ⟨i, hi⟩ := List.getElem?_of_mem hx
  rw [List.getElem?_drop, List.getElem?_take] at hi
  split at hi
  · rename_i hlt
    have hb := h2 (by omega)
    rw [List.getElem?_map] at hi
    cases hg : (hd ++ code ++ tl)[a + i]? with
    | none => rw [hg] at hi; cases hi
    | some s =>
      rw [hg] at hi
      simp only [Option.map_some, Option.some.injEq] at hi
      rw [List.getElem?_append_left (by simp only [List.length_append]; omega),
        List.getElem?_append_right (by omega)] at hg
      rw [← hi]
      exact hc s (List.mem_of_getElem? hg)
  · cases hi

theorem sorted_loop {docs globs invs : List S} (h1 : ∀ s ∈ docs, s = .str)
    (h2 : ∀ s ∈ globs, s = .glob) (h3 : ∀ s ∈ invs, IsContract .invariant s) :
    SortedBy Body.order ((docs ++ globs ++ invs).map toBody) := by
  refine ⟨docs.map toBody, (globs ++ invs).map toBody, by simp, ?_, globs.map toBody,
    invs.map toBody, by simp, ?_, [], _, rfl, by simp, invs.map toBody, [], by simp, ?_,
    [], [], rfl, by simp, [], [], rfl, by simp, [], [], rfl, by simp, [], [], rfl, by simp, rfl⟩
  · intro s hs
    obtain ⟨t, ht, rfl⟩ := List.mem_map.1 hs
    rw [h1 t ht]
    rfl
  · intro s hs
    obtain ⟨t, ht, rfl⟩ := List.mem_map.1 hs
    rw [h2 t ht]
    rfl
  · intro s hs
    obtain ⟨t, ht, rfl⟩ := List.mem_map.1 hs
    obtain ⟨args, rfl, _⟩ := h3 t ht
    rfl

theorem contract_named {k : Kind} {s : S} (h : IsContract k s) :
    Body.funcName (toBody s) ≠ none ∧ Body.isNamed k.nm (toBody s) = some true := by
  obtain ⟨args, rfl, _⟩ := h
  simp [toBody, Body.funcName, Body.fnName, Body.isNamed]

theorem tidy_named {s : S} (h : Tidy s) : Body.funcName (toBody s) ≠ none := by
  cases h <;> simp_all [toBody, Body.funcName]

theorem tidy_code {s : S} (h : Tidy s) : codeS s = true := by
  induction h with
  | str => rw [codeS]
  | glob => rw [codeS]
  | call f args _ hp => rw [codeS]; exact (plainE_iff _).2 hp
  | simple n es hp => rw [codeS]; exact (plainEs_iff _).2 hp
  | block es a b hp _ _ iha ihb =>
    rw [codeS, (plainEs_iff es).2 hp, codeSs_all.2 iha, codeSs_all.2 ihb]
    rfl
  | whileLoop n c docs globs invs code orelse hc h1 h2 h3 hcode _ ihc iho =>
    rw [codeS, (plainE_iff c).2 hc, codeSs_all.2 iho, ← List.append_nil (docs ++ globs ++ invs ++ code),
      window_of (sorted_loop h1 h2 h3) ?_ (by simp) ihc]
    · rfl
    · intro s hs
      simp only [List.append_nil, List.mem_append] at hs
      rcases hs with ((hs | hs) | hs) | hs
      · rw [h1 s hs]; simp [toBody, Body.funcName]
      · rw [h2 s hs]; simp [toBody, Body.funcName]
      · exact (contract_named (h3 s hs)).1
      · exact tidy_named (hcode s hs)
  | forLoop n t i docs globs invs code orelse ht hi h1 h2 h3 hcode _ ihc iho =>
    rw [codeS, (plainE_iff t).2 ht, (plainE_iff i).2 hi, codeSs_all.2 iho,
      ← List.append_nil (docs ++ globs ++ invs ++ code),
      window_of (sorted_loop h1 h2 h3) ?_ (by simp) ihc]
    · rfl
    · intro s hs
      simp only [List.append_nil, List.mem_append] at hs
      rcases hs with ((hs | hs) | hs) | hs
      · rw [h1 s hs]; simp [toBody, Body.funcName]
      · rw [h2 s hs]; simp [toBody, Body.funcName]
      · exact (contract_named (h3 s hs)).1
      · exact tidy_named (hcode s hs)

theorem visit_list {u : U} {cur : Option Nat} : ∀ {ss : List S},
    (∀ s ∈ ss, ∃ rs, visitS u cur s = some rs ∧ ∀ r ∈ rs, plainEs r.args = true) →
    ∃ rs, visitSs u cur ss = some rs ∧ ∀ r ∈ rs, plainEs r.args = true := by
  intro ss
  induction ss with
  | nil => intro _; exact ⟨[], by rw [visitSs], by simp⟩
  | cons s ss ih =>
    intro h
    obtain ⟨x, hx, hxp⟩ := h s (by simp)
    obtain ⟨y, hy, hyp⟩ := ih (fun t ht => h t (by simp [ht]))
    refine ⟨x ++ y, by rw [visitSs, hx, hy]; rfl, fun r hr => ?_⟩
    rcases List.mem_append.1 hr with hr | hr
    · exact hxp r hr
    · exact hyp r hr

theorem visit_isContract {u : U} {cur : Option Nat} {k : Kind} {s : S} (h : IsContract k s)
    (ha : allowed u cur k = true) :
    ∃ rs, visitS u cur s = some rs ∧ ∀ r ∈ rs, plainEs r.args = true := by
  obtain ⟨args, rfl, hp⟩ := h
  refine ⟨[entry cur k args], ?_, ?_⟩
  · rw [visitS, visitE, (contractOf_iff (k := k)).2 rfl]
    simp only []
    rw [if_pos ha, visitEs_plain u cur args ((plainEs_iff _).2 hp)]
    rfl
  · intro r hr
    rw [List.mem_singleton] at hr
    rw [hr, (entry_kind cur k args).2]
    exact (plainEs_iff _).2 hp

theorem tidy_visit {u : U} {s : S} (h : Tidy s) : ∀ (cur : Option Nat),
    ∃ rs, visitS u cur s = some rs ∧ ∀ r ∈ rs, plainEs r.args = true := by
  induction h with
  | str => intro cur; exact ⟨[], by rw [visitS], by simp⟩
  | glob => intro cur; exact ⟨[], by rw [visitS], by simp⟩
  | call f args _ hp =>
    intro cur
    exact ⟨[], by rw [visitS, visitE_plain u cur _ ((plainE_iff _).2 hp)], by simp⟩
  | simple n es hp =>
    intro cur
    exact ⟨[], by rw [visitS, visitEs_plain u cur _ ((plainEs_iff _).2 hp)], by simp⟩
  | block es a b hp _ _ iha ihb =>
    intro cur
    obtain ⟨x, hx, hxp⟩ := visit_list (fun s hs => iha s hs cur)
    obtain ⟨y, hy, hyp⟩ := visit_list (fun s hs => ihb s hs cur)
    refine ⟨x ++ y, ?_, fun r hr => ?_⟩
    · rw [visitS, visitEs_plain u cur _ ((plainEs_iff _).2 hp), hx, hy]
      rfl
    · rcases List.mem_append.1 hr with hr | hr
      · exact hxp r hr
      · exact hyp r hr
  | whileLoop n c docs globs invs code orelse hc h1 h2 h3 _ _ ihc iho =>
    intro cur
    obtain ⟨x, hx, hxp⟩ := visit_list (u := u) (cur := some n)
      (ss := docs ++ globs ++ invs ++ code) (fun s hs => by
        simp only [List.mem_append] at hs
        rcases hs with ((hs | hs) | hs) | hs
        · rw [h1 s hs]; exact ⟨[], by rw [visitS], by simp⟩
        · rw [h2 s hs]; exact ⟨[], by rw [visitS], by simp⟩
        · exact visit_isContract (h3 s hs) rfl
        · exact ihc s hs (some n))
    obtain ⟨y, hy, hyp⟩ := visit_list (fun s hs => iho s hs (some n))
    refine ⟨x ++ y, ?_, fun r hr => ?_⟩
    · rw [visitS, visitE_plain u (some n) _ ((plainE_iff _).2 hc), hx, hy]
      rfl
    · rcases List.mem_append.1 hr with hr | hr
      · exact hxp r hr
      · exact hyp r hr
  | forLoop n t i docs globs invs code orelse ht hi h1 h2 h3 _ _ ihc iho =>
    intro cur
    obtain ⟨x, hx, hxp⟩ := visit_list (u := u) (cur := some n)
      (ss := docs ++ globs ++ invs ++ code) (fun s hs => by
        simp only [List.mem_append] at hs
        rcases hs with ((hs | hs) | hs) | hs
        · rw [h1 s hs]; exact ⟨[], by rw [visitS], by simp⟩
        · rw [h2 s hs]; exact ⟨[], by rw [visitS], by simp⟩
        · exact visit_isContract (h3 s hs) rfl
        · exact ihc s hs (some n))
    obtain ⟨y, hy, hyp⟩ := visit_list (fun s hs => iho s hs (some n))
    refine ⟨x ++ y, ?_, fun r hr => ?_⟩
    · rw [visitS, visitE_plain u (some n) _ ((plainE_iff _).2 ht), hx, hy]
      rfl
    · rcases List.mem_append.1 hr with hr | hr
      · exact hxp r hr
      · exact hyp r hr

theorem run_of {u : U} {ss : List S} {rs : List Rec} (hv : visitSs u none ss = some rs)
    (hb : bodyOk u ss = true) (hp : ∀ r ∈ rs, plainEs r.args = true) : run u ss = some rs := by
  unfold run
  rw [hv]
  simp only []
  rw [if_pos]
  rw [hb, Bool.true_and, List.all_eq_true]
  intro r hr
  rw [hp r hr, Bool.or_true]

theorem sorted_method {docs globs reqs decs ens exs : List S} (h1 : ∀ s ∈ docs, s = .str)
    (h2 : ∀ s ∈ globs, s = .glob) (h3 : ∀ s ∈ reqs, IsContract .requires s)
    (h4 : ∀ s ∈ decs, IsContract .decreases s) (h5 : ∀ s ∈ ens, IsContract .ensures s)
    (h6 : ∀ s ∈ exs, IsContract .exsures s) :
    SortedBy Body.order ((docs ++ globs ++ reqs ++ decs ++ ens ++ exs).map toBody) := by
  have hk : ∀ (k : Kind) (l : List S), (∀ s ∈ l, IsContract k s) → ∀ s ∈ l.map toBody,
      Body.isNamed k.nm s = some true := by
    intro k l hl s hs
    obtain ⟨t, ht, rfl⟩ := List.mem_map.1 hs
    exact (contract_named (hl t ht)).2
  refine ⟨docs.map toBody, (globs ++ reqs ++ decs ++ ens ++ exs).map toBody, by simp, ?_,
    globs.map toBody, (reqs ++ decs ++ ens ++ exs).map toBody, by simp, ?_, [], _, rfl, by simp,
    [], _, rfl, by simp, reqs.map toBody, (decs ++ ens ++ exs).map toBody, by simp,
    hk .requires _ h3, decs.map toBody, (ens ++ exs).map toBody, by simp, hk .decreases _ h4,
    ens.map toBody, exs.map toBody, by simp, hk .ensures _ h5, exs.map toBody, [], by simp,
    hk .exsures _ h6, rfl⟩
  · intro s hs
    obtain ⟨t, ht, rfl⟩ := List.mem_map.1 hs
    rw [h1 t ht]
    rfl
  · intro s hs
    obtain ⟨t, ht, rfl⟩ := List.mem_map.1 hs
    rw [h2 t ht]
    rfl

end Nagini.Placement
