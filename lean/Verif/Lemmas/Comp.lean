import Verif.Spec.Comp

set_option linter.unusedVariables false
set_option linter.unusedSimpArgs false

namespace Nagini.Comp

/-- Sources with indices. -/
def Indexed (src : Src) : Prop := getTy src = .ref ∧ ∀ kvs, src ≠ .dict kvs

theorem silSeq_elems (src : Src) : silSeq src = elems src := by cases src <;> rfl

theorem getItem_elems {src : Src} (h : Indexed src) {n : Nat} (hn : n < (elems src).length) :
    getItem src n = some ((elems src)[n]) := by
  obtain ⟨h1, h2⟩ := h
  cases src with
  | dict kvs => exact absurd rfl (h2 kvs)
  | list xs => simp [getItem, seqGet, elems] at hn ⊢
  | tuple xs => simp [getItem, seqGet, elems] at hn ⊢
  | pseq xs => simp [getItem, seqGet, elems] at hn ⊢
  | bytes bs => simp [getItem, seqGet, elems] at hn ⊢
  | _ => cases h1

theorem holds_and {W : World} {E : Env} {a b : F} : holds W E (.and a b) ↔ holds W E a ∧ holds W E b := Iff.rfl

theorem holds_imp {W : World} {E : Env} {a b : F} : holds W E (.imp a b) ↔ (holds W E a → holds W E b) := Iff.rfl

/-- The environment with an index and its element. -/
def Env.at (E : Env) (x : IVar) (n : Nat) (v : Val) : Env :=
  { int := fun y => if y = x then n else E.int y, ref := fun y => if y = .elem then v else E.ref y }

theorem holds_all {src : Src} {W : World} {E : Env} {x : IVar} {a : F} (hi : Indexed src) (hW : W.src = src) :
    holds W E (.all x (.imp (inBounds x) (.bind .elem (.item (.var x)) a))) ↔
      ∀ n (h : n < (elems src).length), holds W (E.at x n ((elems src)[n])) a := by
  simp only [holds, inBounds, evalI, both, evalR, hW, silSeq_elems, if_true, Option.bind_some]
  constructor
  · intro h n hn
    have := h n ⟨by omega, by omega⟩
    rw [getItem_elems hi hn] at this
    exact this
  · intro h n hn
    obtain ⟨h1, h2⟩ := hn
    obtain ⟨m, rfl⟩ : ∃ m : Nat, n = (m : Int) := ⟨n.toNat, by omega⟩
    have hm : m < (elems src).length := by omega
    have := h m hm
    rw [getItem_elems hi hm]
    exact this

theorem wd_all {src : Src} {W : World} {E : Env} {x : IVar} {a : F} (hi : Indexed src) (hW : W.src = src) :
    wd W E (.all x (.imp (inBounds x) (.bind .elem (.item (.var x)) a))) ↔
      ∀ n (h : n < (elems src).length), wd W (E.at x n ((elems src)[n])) a := by
  simp only [wd, holds, inBounds, evalI, both, evalR, hW, silSeq_elems, if_true, Option.bind_some, Option.isSome_some,
    true_and, and_self, implies_true]
  constructor
  · intro h n hn
    have := h n ⟨by omega, by omega⟩
    rw [getItem_elems hi hn] at this
    exact this
  · intro h n hn
    obtain ⟨h1, h2⟩ := hn
    obtain ⟨m, rfl⟩ : ∃ m : Nat, n = (m : Int) := ⟨n.toNat, by omega⟩
    have hm : m < (elems src).length := by omega
    have := h m hm
    rw [getItem_elems hi hm]
    exact this

/-! Filters -/

theorem filter_none {ifs : List Cond} (h : filterCond ifs = none) : ifs = [] := by
  cases ifs with
  | nil => rfl
  | cons c cs => simp [filterCond] at h

theorem filter_some {ifs : List Cond} {p : Cond} (h : filterCond ifs = some p) (x : Val) : p x = passes ifs x := by
  cases ifs with
  | nil => simp [filterCond] at h
  | cons c cs =>
    simp only [filterCond, Option.some.injEq] at h
    subst h
    suffices ∀ (cs : List Cond) (c : Cond),
        (cs.foldl (fun acc d v => match acc v with | some true => d v | r => r) c : Cond) x = passes (c :: cs) x from
      this cs c
    intro cs
    induction cs with
    | nil =>
      intro c
      simp only [List.foldl_nil, passes]
      cases c x with
      | none => rfl
      | some b => cases b <;> rfl
    | cons d cs ih =>
      intro c
      rw [List.foldl_cons, ih]
      simp only [passes]
      cases c x with
      | none => rfl
      | some b => cases b <;> rfl

/-! `comp` -/

/-- The element raises no exception. -/
def Fine {β : Type} (f : Val → Option β) (ifs : List Cond) (x : Val) : Prop :=
  (passes ifs x).isSome ∧ (passes ifs x = some true → (f x).isSome)

theorem comp_isSome {β : Type} (f : Val → Option β) (ifs : List Cond) (xs : List Val) :
    (comp f ifs xs).isSome ↔ ∀ x ∈ xs, Fine f ifs x := by
  induction xs with
  | nil => simp [comp]
  | cons x xs ih =>
    rw [List.forall_mem_cons, ← ih, comp]
    unfold Fine
    cases hp : passes ifs x with
    | none => simp
    | some b =>
      cases b with
      | false => simp
      | true => cases f x <;> simp

theorem comp_append {β : Type} (f : Val → Option β) (ifs : List Cond) (xs ys : List Val) :
    comp f ifs (xs ++ ys) = (comp f ifs xs).bind fun as => (comp f ifs ys).map fun bs => as ++ bs := by
  induction xs with
  | nil => cases h : comp f ifs ys <;> simp [comp, h]
  | cons x xs ih =>
    rw [List.cons_append, comp, ih, comp]
    cases passes ifs x with
    | none => rfl
    | some b =>
      cases b with
      | false => rfl
      | true =>
        cases f x with
        | none => rfl
        | some y =>
          cases comp f ifs xs with
          | none => rfl
          | some as => cases h : comp f ifs ys <;> simp

theorem mem_comp {β : Type} {f : Val → Option β} {ifs : List Cond} {xs : List Val} {r : List β}
    (h : comp f ifs xs = some r) (y : β) : y ∈ r ↔ ∃ x ∈ xs, passes ifs x = some true ∧ f x = some y := by
  induction xs generalizing r with
  | nil => simp only [comp, Option.some.injEq] at h; subst h; simp
  | cons x xs ih =>
    rw [comp] at h
    cases hp : passes ifs x with
    | none => rw [hp] at h; cases h
    | some b =>
      rw [hp] at h
      cases b with
      | false =>
        simp only at h
        rw [ih h]
        simp [hp]
      | true =>
        simp only at h
        cases hf : f x with
        | none => rw [hf] at h; cases h
        | some z =>
          cases hr : comp f ifs xs with
          | none => rw [hf, hr] at h; cases h
          | some s =>
            rw [hf, hr] at h
            cases h
            rw [List.mem_cons, ih hr]
            simp only [List.mem_cons, exists_eq_or_imp, hp, hf, true_and, Option.some.injEq]
            rw [eq_comm]

theorem comp_length {β : Type} {f : Val → Option β} {ifs : List Cond} {xs : List Val} {r : List β}
    (h : comp f ifs xs = some r) : r.length ≤ xs.length := by
  induction xs generalizing r with
  | nil => simp only [comp, Option.some.injEq] at h; subst h; simp
  | cons x xs ih =>
    rw [comp] at h
    cases hp : passes ifs x with
    | none => rw [hp] at h; cases h
    | some b =>
      rw [hp] at h
      cases b with
      | false => have := ih h; simp only [List.length_cons]; omega
      | true =>
        simp only at h
        cases hf : f x with
        | none => rw [hf] at h; cases h
        | some z =>
          cases hr : comp f ifs xs with
          | none => rw [hf, hr] at h; cases h
          | some s =>
            rw [hf, hr] at h
            cases h
            have := ih hr
            simp only [List.length_cons]
            omega

theorem comp_nil {β : Type} {f : Val → Option β} {xs : List Val} {r : List β} :
    comp f [] xs = some r ↔ r.length = xs.length ∧ ∀ n (h : n < xs.length) (h' : n < r.length), f xs[n] = some r[n] := by
  induction xs generalizing r with
  | nil =>
    simp only [comp, Option.some.injEq, List.length_nil]
    constructor
    · rintro rfl; exact ⟨rfl, fun n h => absurd h (by simp)⟩
    · rintro ⟨h, _⟩; exact (List.length_eq_zero_iff.1 h).symm
  | cons x xs ih =>
    rw [comp]
    simp only [passes]
    cases r with
    | nil =>
      constructor
      · intro h
        cases hf : f x with
        | none => rw [hf] at h; cases h
        | some y => cases hr : comp f [] xs <;> rw [hf, hr] at h <;> cases h
      · rintro ⟨h, _⟩; cases h
    | cons y ys =>
      constructor
      · intro h
        cases hf : f x with
        | none => rw [hf] at h; cases h
        | some z =>
          cases hr : comp f [] xs with
          | none => rw [hf, hr] at h; cases h
          | some s =>
            rw [hf, hr] at h
            cases h
            obtain ⟨h1, h2⟩ := ih.1 hr
            refine ⟨by simp [h1], fun n hn hn' => ?_⟩
            cases n with
            | zero => simpa using hf
            | succ n => simpa using h2 n (by simpa using hn) (by simpa using hn')
      · rintro ⟨h1, h2⟩
        have h0 := h2 0 (by simp) (by simp)
        simp only [List.getElem_cons_zero] at h0
        rw [h0, ih.2 ⟨by simpa using h1, fun n hn hn' =>
          h2 (n + 1) (by simpa using hn) (by simpa using hn')⟩]
        rfl

/-! Lists -/

theorem forall_index {xs : List Val} {Q : Val → Prop} : (∀ n (h : n < xs.length), Q xs[n]) ↔ ∀ x ∈ xs, Q x := by
  constructor
  · intro h x hx
    obtain ⟨n, hn, rfl⟩ := List.getElem_of_mem hx
    exact h n hn
  · intro h n hn
    exact h _ (List.getElem_mem hn)

theorem letElem_indexed {src : Src} {x : IVar} {a b : F} (h : letElem src x a = .ok b) (hd : ∀ kvs, src ≠ .dict kvs) :
    Indexed src ∧ b = .bind .elem (.item (.var x)) a := by
  unfold letElem at h
  cases ht : getTy src with
  | ref => rw [ht] at h; cases h; exact ⟨⟨ht, hd⟩, rfl⟩
  | int => rw [ht] at h; cases h
  | missing => rw [ht] at h; cases h

theorem list_wd {src : Src} {f : Fn} {ss : List Stmt} (h : listInhale src f = .ok ss) (hd : ∀ kvs, src ≠ .dict kvs) :
    accepted src false ss ↔ (comp f [] (elems src)).isSome := by
  rw [comp_isSome]
  unfold listInhale at h
  cases hl : letElem src .i (.eqR (.index (.var .i)) (.user f)) with
  | error e => rw [hl] at h; cases h
  | ok value =>
    rw [hl] at h
    cases h
    obtain ⟨hi, rfl⟩ := letElem_indexed hl hd
    simp only [accepted, and_true]
    have key : ∀ W : World, W.src = src →
        (wd W env₀ (.and (.and .typ .acc) (.and (.eqI .resLenFn .srcLen)
          (.all .i (.imp (inBounds .i) (.bind .elem (.item (.var .i)) (.eqR (.index (.var .i)) (.user f))))))) ↔
        (W.typ = true → W.perm = true → W.seq.length = (elems src).length → ∀ x ∈ elems src, (f x).isSome)) := by
      intro W hW
      rw [wd, wd]
      conv => lhs; rhs; intro h; rw [wd, wd_all hi hW]
      simp only [wd, holds, evalI, hW, silSeq_elems]
      constructor
      · intro h ht hp hlen
        obtain ⟨h1, h2⟩ := h.2 ⟨ht, hp⟩
        have h3 := h2 (by simp [ht, hp, both, hlen])
        rw [← forall_index]
        intro n hn
        exact (h3 n hn).2
      · intro h
        refine ⟨⟨trivial, fun _ => trivial⟩, fun ⟨ht, hp⟩ => ⟨by simp [ht, hp], fun h1 n hn => ?_⟩⟩
        have hlen : W.seq.length = (elems src).length := by
          simp only [ht, hp, both, Bool.and_self, if_true] at h1
          omega
        refine ⟨?_, h ht hp hlen _ (List.getElem_mem hn)⟩
        simp only [evalR, evalI, Env.at, if_true, Option.bind_some, hp]
        rw [if_pos (by omega)]
        simp only [Int.toNat_natCast]
        rw [List.getElem?_eq_getElem (by omega)]
        rfl
    constructor
    · intro h x hx
      have := (key (built src (elems src) (fun _ => True) (fun _ => none)) rfl).1 (h _ rfl (fun _ => rfl)) rfl rfl rfl x hx
      exact ⟨rfl, fun _ => this⟩
    · intro h W hW _
      rw [key W hW]
      intro _ _ _ x hx
      exact (h x hx).2 rfl

theorem list_known {src : Src} {f : Fn} {ss : List Stmt} (h : listInhale src f = .ok ss) (hd : ∀ kvs, src ≠ .dict kvs)
    (W : World) :
    known src false W ss ↔ W.src = src ∧ W.typ = true ∧ W.perm = true ∧ comp f [] (elems src) = some W.seq := by
  unfold listInhale at h
  cases hl : letElem src .i (.eqR (.index (.var .i)) (.user f)) with
  | error e => rw [hl] at h; cases h
  | ok value =>
    rw [hl] at h
    cases h
    obtain ⟨hi, rfl⟩ := letElem_indexed hl hd
    simp only [known]
    rw [holds_and, holds_and, holds_and, comp_nil]
    by_cases hW : W.src = src
    · rw [holds_all hi hW]
      simp only [holds, evalI, hW, silSeq_elems, true_and]
      by_cases ht : W.typ = true
      · by_cases hp : W.perm = true
        · simp only [ht, hp, both, Bool.and_self, if_true, true_and, and_true, Bool.false_eq_true, false_implies, evalR, evalI,
            Env.at, Option.bind_some]
          have hlen : ((W.seq.length : Int) = (elems src).length) ↔ W.seq.length = (elems src).length := by omega
          rw [hlen]
          constructor
          · rintro ⟨h1, h2⟩
            refine ⟨h1, fun n hn hn' => ?_⟩
            have := h2 n hn
            rw [if_pos (by omega), Int.toNat_natCast, List.getElem?_eq_getElem hn'] at this
            cases hf : f (elems src)[n] with
            | none => rw [hf] at this; exact this.elim
            | some y => rw [hf] at this; exact congrArg some (Eq.symm this)
          · rintro ⟨h1, h2⟩
            refine ⟨h1, fun n hn => ?_⟩
            rw [if_pos (by omega), Int.toNat_natCast, List.getElem?_eq_getElem (by omega), h2 n hn (by omega)]
        · simp [hp]
      · simp [ht]
    · simp [hW]

theorem filtered_wd {src : Src} {f : Fn} {p : Cond} {ifs : List Cond} {ss : List Stmt} (h : filteredInhale src f p = .ok ss)
    (hp : ∀ x, p x = passes ifs x) (hd : ∀ kvs, src ≠ .dict kvs) :
    accepted src false ss ↔ (comp f ifs (elems src)).isSome := by
  rw [comp_isSome]
  unfold filteredInhale at h
  cases hl : letElem src .i (.imp (.cond p) (.inSeq (.user f))) with
  | error e => rw [hl] at h; cases h
  | ok value =>
    rw [hl] at h
    cases h
    obtain ⟨hi, rfl⟩ := letElem_indexed hl hd
    simp only [accepted, and_true]
    have key : ∀ W : World, W.src = src →
        (wd W env₀ (.and (.and .typ .acc) (.and (.le .resLen .srcLen)
          (.all .i (.imp (inBounds .i) (.bind .elem (.item (.var .i)) (.imp (.cond p) (.inSeq (.user f)))))))) ↔
        (W.typ = true → W.perm = true → W.seq.length ≤ (elems src).length → ∀ x ∈ elems src, Fine f ifs x)) := by
      intro W hW
      rw [wd, wd]
      conv => lhs; rhs; intro h; rw [wd, wd_all hi hW]
      simp only [wd, holds, evalI, hW, silSeq_elems, evalR, Env.at, if_true, hp]
      constructor
      · intro h ht hpm hlen
        obtain ⟨h1, h2⟩ := h.2 ⟨ht, hpm⟩
        have h3 := h2 (by simp [hpm, both, hlen])
        rw [← forall_index (Q := Fine f ifs)]
        intro n hn
        exact ⟨(h3 n hn).1, fun h => ((h3 n hn).2 h).1⟩
      · intro h
        refine ⟨⟨trivial, fun _ => trivial⟩, fun ⟨ht, hpm⟩ => ⟨by simp [hpm], fun h1 n hn => ?_⟩⟩
        have hlen : W.seq.length ≤ (elems src).length := by
          simp only [hpm, both, if_true] at h1
          omega
        have := h ht hpm hlen _ (List.getElem_mem hn)
        exact ⟨this.1, fun h => ⟨this.2 h, hpm⟩⟩
    constructor
    · intro h x hx
      exact (key (built src [] (fun _ => True) (fun _ => none)) rfl).1 (h _ rfl (fun _ => rfl)) rfl rfl (by simp [built]) x hx
    · intro h W hW _
      rw [key W hW]
      intro _ _ _ x hx
      exact h x hx

theorem filtered_known {src : Src} {f : Fn} {p : Cond} {ifs : List Cond} {ss : List Stmt}
    (h : filteredInhale src f p = .ok ss) (hp : ∀ x, p x = passes ifs x) (hd : ∀ kvs, src ≠ .dict kvs) (W : World) :
    known src false W ss ↔ W.src = src ∧ W.typ = true ∧ W.perm = true ∧ W.seq.length ≤ (elems src).length ∧
      ∀ x ∈ elems src, passes ifs x = some true → ∃ y, f x = some y ∧ y ∈ W.seq := by
  unfold filteredInhale at h
  cases hl : letElem src .i (.imp (.cond p) (.inSeq (.user f))) with
  | error e => rw [hl] at h; cases h
  | ok value =>
    rw [hl] at h
    cases h
    obtain ⟨hi, rfl⟩ := letElem_indexed hl hd
    simp only [known]
    rw [holds_and, holds_and, holds_and]
    by_cases hW : W.src = src
    · rw [holds_all hi hW]
      simp only [holds, evalI, hW, silSeq_elems, true_and, evalR, Env.at, if_true, hp]
      rw [forall_index (Q := fun x => passes ifs x = some true → ∃ y, f x = some y ∧ y ∈ W.seq)]
      by_cases ht : W.typ = true
      · by_cases hpm : W.perm = true
        · simp only [ht, hpm, both, if_true, true_and, and_true, Bool.false_eq_true, false_implies]
          have hlen : ((W.seq.length : Int) ≤ (elems src).length) ↔ W.seq.length ≤ (elems src).length := by omega
          rw [hlen]
        · simp [hpm]
      · simp [ht]
    · simp [hW]

/-! Sets -/

theorem set_wd {src : Src} {f : Fn} {ifs : List Cond} {ss : List Stmt} (h : translateSet src f ifs = .ok ss)
    (hd : ∀ kvs, src ≠ .dict kvs) :
    accepted src false ss ↔ (comp f ifs (elems src)).isSome := by
  rw [comp_isSome]
  unfold translateSet at h
  cases hc : filterCond ifs with
  | none =>
    have := filter_none hc
    subst this
    rw [hc] at h
    simp only at h
    cases hl : letElem src .i (.inSet (.user f)) with
    | error e => rw [hl] at h; cases h
    | ok value =>
      rw [hl] at h
      cases h
      obtain ⟨hi, rfl⟩ := letElem_indexed hl hd
      simp only [accepted, and_true]
      constructor
      · intro h
        have := h (built src [] (fun _ => True) (fun _ => none)) rfl (fun _ => rfl)
        rw [wd, wd_all hi rfl] at this
        rw [← forall_index (Q := Fine f [])]
        intro n hn
        exact ⟨rfl, fun _ => (this.2 rfl n hn).1⟩
      · intro h W hW hp
        rw [wd, wd_all hi hW]
        exact ⟨trivial, fun _ n hn => ⟨(h _ (List.getElem_mem hn)).2 rfl, hp trivial⟩⟩
  | some p =>
    have hp := filter_some hc
    rw [hc] at h
    simp only at h
    cases hl : letElem src .i (.imp (.cond p) (.inSet (.user f))) with
    | error e => rw [hl] at h; cases h
    | ok value =>
      rw [hl] at h
      cases h
      obtain ⟨hi, rfl⟩ := letElem_indexed hl hd
      simp only [accepted, and_true]
      constructor
      · intro h
        have := h (built src [] (fun _ => True) (fun _ => none)) rfl (fun _ => rfl)
        rw [wd, wd_all hi rfl] at this
        rw [← forall_index (Q := Fine f ifs)]
        intro n hn
        have := this.2 rfl n hn
        simp only [wd, holds, Env.at, if_true, hp, evalR] at this
        exact ⟨this.1, fun h => (this.2 h).1⟩
      · intro h W hW hpm
        rw [wd, wd_all hi hW]
        refine ⟨trivial, fun _ n hn => ?_⟩
        have := h _ (List.getElem_mem hn)
        simp only [wd, holds, Env.at, if_true, hp, evalR]
        exact ⟨this.1, fun h => ⟨this.2 h, hpm trivial⟩⟩

theorem set_known {src : Src} {f : Fn} {ifs : List Cond} {ss : List Stmt} (h : translateSet src f ifs = .ok ss)
    (hd : ∀ kvs, src ≠ .dict kvs) (W : World) :
    known src false W ss ↔ W.src = src ∧ W.typ = true ∧ W.perm = true ∧
      ∀ x ∈ elems src, passes ifs x = some true → ∃ y, f x = some y ∧ W.set y := by
  unfold translateSet at h
  cases hc : filterCond ifs with
  | none =>
    have := filter_none hc
    subst this
    rw [hc] at h
    simp only at h
    cases hl : letElem src .i (.inSet (.user f)) with
    | error e => rw [hl] at h; cases h
    | ok value =>
      rw [hl] at h
      cases h
      obtain ⟨hi, rfl⟩ := letElem_indexed hl hd
      simp only [known]
      by_cases hW : W.src = src
      · rw [holds, holds_all hi hW]
        simp only [holds, evalR, Env.at, if_true]
        rw [forall_index (Q := fun x => ∃ y, f x = some y ∧ W.set y)]
        simp only [passes, hW, true_and, true_implies]
        exact ⟨fun h => ⟨h.1.1, h.2, h.1.2⟩, fun h => ⟨⟨h.1, h.2.2⟩, h.2.1⟩⟩
      · simp [hW]
  | some p =>
    have hp := filter_some hc
    rw [hc] at h
    simp only at h
    cases hl : letElem src .i (.imp (.cond p) (.inSet (.user f))) with
    | error e => rw [hl] at h; cases h
    | ok value =>
      rw [hl] at h
      cases h
      obtain ⟨hi, rfl⟩ := letElem_indexed hl hd
      simp only [known]
      by_cases hW : W.src = src
      · rw [holds, holds_all hi hW]
        simp only [holds, evalR, Env.at, if_true, hp]
        rw [forall_index (Q := fun x => passes ifs x = some true → ∃ y, f x = some y ∧ W.set y)]
        simp only [hW, true_and, true_implies]
        exact ⟨fun h => ⟨h.1.1, h.2, h.1.2⟩, fun h => ⟨⟨h.1, h.2.2⟩, h.2.1⟩⟩
      · simp [hW]

/-- Every value added is equal to a member. -/
theorem addSet_fold (E : Val → Val → Bool) (hr : ∀ a, E a a = true) (ys S : List Val) :
    (∀ z ∈ S, z ∈ ys.foldl (addSet E) S) ∧ (∀ y ∈ ys, ∃ z ∈ ys.foldl (addSet E) S, E z y = true) ∧
    (∀ z ∈ ys.foldl (addSet E) S, z ∈ S ∨ z ∈ ys) := by
  induction ys generalizing S with
  | nil => simp
  | cons y ys ih =>
    obtain ⟨h1, h2, h3⟩ := ih (addSet E S y)
    rw [List.foldl_cons]
    have hsub : ∀ z ∈ S, z ∈ addSet E S y := by
      intro z hz
      unfold addSet
      split
      · exact hz
      · exact List.mem_append_left _ hz
    refine ⟨fun z hz => h1 z (hsub z hz), fun w hw => ?_, fun z hz => ?_⟩
    · rcases List.mem_cons.1 hw with rfl | hw
      · by_cases ha : S.any (fun z => E z w) = true
        · obtain ⟨z, hz, hE⟩ := List.any_eq_true.1 ha
          exact ⟨z, h1 z (hsub z hz), hE⟩
        · refine ⟨w, h1 w ?_, hr w⟩
          unfold addSet
          rw [if_neg ha]
          exact List.mem_append_right _ (List.mem_singleton.2 rfl)
      · exact h2 w hw
    · rcases h3 z hz with h | h
      · unfold addSet at h
        split at h
        · exact .inl h
        · rcases List.mem_append.1 h with h | h
          · exact .inl h
          · exact .inr (List.mem_cons.2 (.inl (List.mem_singleton.1 h)))
      · exact .inr (List.mem_cons_of_mem _ h)

/-! Dicts -/

theorem asMap_setKey {E : Val → Val → Bool} (d : List (Val × Val)) (a v : Val)
    (hid : ∀ p ∈ d, (E p.1 a = true ↔ p.1 = a)) (b : Val) :
    asMap (setKey E d a v) b = if a = b then some v else asMap d b := by
  induction d with
  | nil => by_cases h : a = b <;> simp [setKey, asMap, h]
  | cons p d ih =>
    obtain ⟨c, w⟩ := p
    have h0 : E c a = true ↔ c = a := hid (c, w) List.mem_cons_self
    have ih := ih (fun q hq => hid q (List.mem_cons_of_mem _ hq))
    rw [setKey]
    by_cases hc : E c a = true
    · rw [if_pos hc]
      have := h0.1 hc
      subst this
      by_cases hb : c = b <;> simp [asMap, hb]
    · rw [if_neg hc]
      have hca : c ≠ a := fun h => hc (h0.2 h)
      unfold asMap at ih ⊢
      by_cases hb : c = b
      · subst hb
        simp [Ne.symm hca]
      · simp [hb, ih]

theorem setKey_keys {E : Val → Val → Bool} (d : List (Val × Val)) (a v : Val) :
    ∀ p ∈ setKey E d a v, p.1 = a ∨ p.1 ∈ d.map Prod.fst := by
  induction d with
  | nil => simp [setKey]
  | cons q d ih =>
    obtain ⟨c, w⟩ := q
    rw [setKey]
    intro p hp
    split at hp
    · rcases List.mem_cons.1 hp with rfl | hp
      · exact .inr (by simp)
      · exact .inr (by simp only [List.map_cons, List.mem_cons]; exact .inr (List.mem_map_of_mem hp))
    · rcases List.mem_cons.1 hp with rfl | hp
      · exact .inr (by simp)
      · rcases ih p hp with h | h
        · exact .inl h
        · exact .inr (by simp only [List.map_cons, List.mem_cons]; exact .inr h)

/-- The last pair wins. -/
theorem asMap_fold {E : Val → Val → Bool} (ps d : List (Val × Val))
    (hid : ∀ a ∈ d.map Prod.fst ++ ps.map Prod.fst, ∀ b ∈ d.map Prod.fst ++ ps.map Prod.fst, (E a b = true ↔ a = b)) (a : Val) :
    asMap (ps.foldl (fun d p => setKey E d p.1 p.2) d) a =
      match asMap ps.reverse a with
      | some v => some v
      | none => asMap d a := by
  induction ps generalizing d with
  | nil => rfl
  | cons p ps ih =>
    obtain ⟨c, w⟩ := p
    rw [List.foldl_cons, ih]
    · rw [asMap_setKey d c w (fun q hq => hid q.1 (by simp only [List.mem_append]; exact .inl (List.mem_map_of_mem hq)) c (by simp))]
      simp only [List.reverse_cons, asMap, List.find?_append]
      cases ps.reverse.find? (fun p => p.1 = a) with
      | some q => rfl
      | none => by_cases h : c = a <;> simp [h]
    · have hk : ∀ x ∈ (setKey E d c w).map Prod.fst ++ ps.map Prod.fst,
          x ∈ d.map Prod.fst ++ ((c, w) :: ps).map Prod.fst := by
        intro x hx
        rcases List.mem_append.1 hx with hx | hx
        · obtain ⟨q, hq, rfl⟩ := List.mem_map.1 hx
          rcases setKey_keys d c w q hq with h | h
          · rw [h]; simp
          · exact List.mem_append_left _ h
        · exact List.mem_append_right _ (by simp only [List.map_cons, List.mem_cons]; exact .inr hx)
      exact fun x hx y hy => hid x (hk x hx) y (hk y hy)

/-- What is known about the dict, with lists in place of indices. -/
def DictFacts (k v : Fn) (ifs : List Cond) (m : Val → Option Val) (xs : List Val) : Prop :=
  ∀ pre x post, xs = pre ++ x :: post → ∃ a, k x = some a ∧ (passes ifs x = some true →
    (m a).isSome ∧ ((∀ y ∈ post, passes ifs y = some true → ∃ b, k y = some b ∧ b ≠ a) → ∃ w, m a = some w ∧ v x = some w))

theorem forall_split {xs : List Val} {Q : Val → Nat → List Val → Prop} :
    (∀ n (h : n < xs.length), Q xs[n] n (xs.drop (n + 1))) ↔
      ∀ pre x post, xs = pre ++ x :: post → Q x pre.length post := by
  constructor
  · rintro h pre x post rfl
    have := h pre.length (by simp)
    simpa using this
  · intro h n hn
    have := h (xs.take n) xs[n] (xs.drop (n + 1)) (by simp)
    rwa [List.length_take, Nat.min_eq_left (by omega)] at this

theorem later_iff {xs : List Val} {n : Nat} {Q : Val → Prop} :
    (∀ m (h : m < xs.length), n < m → Q xs[m]) ↔ ∀ y ∈ xs.drop (n + 1), Q y := by
  constructor
  · intro h y hy
    obtain ⟨m, hm, rfl⟩ := List.getElem_of_mem hy
    rw [List.getElem_drop]
    exact h _ (by rw [List.length_drop] at hm; omega) (by omega)
  · intro h m hm hnm
    have : xs[m] = (xs.drop (n + 1))[m - (n + 1)]'(by rw [List.length_drop]; omega) := by
      rw [List.getElem_drop]
      congr 1
      omega
    rw [this]
    exact h _ (List.getElem_mem _)

theorem wd_and {W : World} {E : Env} {a b : F} : wd W E (.and a b) ↔ wd W E a ∧ (holds W E a → wd W E b) := Iff.rfl

theorem wd_imp {W : World} {E : Env} {a b : F} : wd W E (.imp a b) ↔ wd W E a ∧ (holds W E a → wd W E b) := Iff.rfl

/-- The condition on later elements. -/
def Later (ifs : List Cond) (later : F) : Prop :=
  (ifs = [] ∧ later = .lt (.var .i) (.var .j)) ∨
  (∃ p, (∀ x, p x = passes ifs x) ∧ later = .and (.lt (.var .i) (.var .j)) (.cond p))

/-- No later element has the key. -/
def noDup (k : Fn) (later : F) : F :=
  .all .j (.imp (inBounds .j) (.bind .elem (.item (.var .j)) (.imp later (.neR (.user k) (.var .key)))))

/-- What is said about one element. -/
def core (k v : Fn) (later : F) : F :=
  .and (.inMap (.var .key)) (.imp (noDup k later) (.eqR (.lookup (.var .key)) (.user v)))

/-- The parts of a translated dict comprehension. -/
theorem dict_parts {src : Src} {k v : Fn} {ifs : List Cond} {ss : List Stmt} (h : translateDict src k v ifs = .ok ss)
    (hd : ∀ kvs, src ≠ .dict kvs) :
    Indexed src ∧ ∃ later per : F, Later ifs later ∧
      ss = [.new, .inhale (.and .typ (.all .i (.imp (inBounds .i) (.bind .elem (.item (.var .i)) (.bind .key (.user k) per)))))] ∧
      ((ifs = [] ∧ per = core k v later) ∨ (∃ p, (∀ x, p x = passes ifs x) ∧ per = .imp (.cond p) (core k v later))) := by
  unfold translateDict dictContents noLaterDup at h
  cases hc : filterCond ifs with
  | none =>
    rw [hc] at h
    simp only at h
    cases hl : letElem src .j (.imp (.lt (.var .i) (.var .j)) (.neR (.user k) (.var .key))) with
    | error e => rw [hl] at h; cases h
    | ok a =>
      rw [hl] at h
      simp only at h
      obtain ⟨hi, rfl⟩ := letElem_indexed hl hd
      rw [letElem, hi.1] at h
      cases h
      exact ⟨hi, _, _, .inl ⟨filter_none hc, rfl⟩, rfl, .inl ⟨filter_none hc, rfl⟩⟩
  | some p =>
    rw [hc] at h
    simp only at h
    cases hl : letElem src .j (.imp (.and (.lt (.var .i) (.var .j)) (.cond p)) (.neR (.user k) (.var .key))) with
    | error e => rw [hl] at h; cases h
    | ok a =>
      rw [hl] at h
      simp only at h
      obtain ⟨hi, rfl⟩ := letElem_indexed hl hd
      rw [letElem, hi.1] at h
      cases h
      exact ⟨hi, _, _, .inr ⟨p, filter_some hc, rfl⟩, rfl, .inr ⟨p, filter_some hc, rfl⟩⟩

theorem both_ne {a : Val} {o : Option Val} : both (fun v w : Val => v ≠ w) o (some a) ↔ ∃ b, o = some b ∧ b ≠ a := by
  cases o <;> simp [both]

theorem both_eq {o r : Option Val} : both (fun v w : Val => v = w) o r ↔ ∃ w, o = some w ∧ r = some w := by
  cases o <;> cases r <;> simp [both, eq_comm]

/-- No later element that passes has the key. -/
def Last (k : Fn) (ifs : List Cond) (a : Val) (post : List Val) : Prop :=
  ∀ y ∈ post, passes ifs y = some true → ∃ b, k y = some b ∧ b ≠ a

theorem noDup_holds {src : Src} {W : World} {E : Env} {k : Fn} {ifs : List Cond} {later : F} {n : Nat} {a : Val}
    (hi : Indexed src) (hW : W.src = src) (hl : Later ifs later) (hn : E.int .i = n) (ha : E.ref .key = a) :
    holds W E (noDup k later) ↔ Last k ifs a ((elems src).drop (n + 1)) := by
  unfold Last
  rw [noDup, holds_all hi hW, ← later_iff (Q := fun y => passes ifs y = some true → ∃ b, k y = some b ∧ b ≠ a)]
  refine forall_congr' fun m => forall_congr' fun hm => ?_
  rw [holds_imp]
  have h2 : holds W (E.at .j m (elems src)[m]) (.neR (.user k) (.var .key)) ↔ ∃ b, k (elems src)[m] = some b ∧ b ≠ a := by
    rw [← both_ne]
    simp [holds, evalR, Env.at, ha]
  have h1 : holds W (E.at .j m (elems src)[m]) (.lt (.var .i) (.var .j)) ↔ n < m := by
    simp [holds, evalI, Env.at, hn, both]
  rw [h2]
  rcases hl with ⟨rfl, rfl⟩ | ⟨p, hp, rfl⟩
  · rw [h1]
    simp [passes]
  · rw [holds_and, h1, and_imp]
    have : holds W (E.at .j m (elems src)[m]) (.cond p) ↔ passes ifs (elems src)[m] = some true := by
      simp [holds, Env.at, hp]
    rw [this]

theorem noDup_wd {src : Src} {W : World} {E : Env} {k : Fn} {ifs : List Cond} {later : F}
    (hi : Indexed src) (hW : W.src = src) (hl : Later ifs later)
    (hk : ∀ y ∈ elems src, (k y).isSome ∧ (passes ifs y).isSome) : wd W E (noDup k later) := by
  rw [noDup, wd_all hi hW]
  intro m hm
  have := hk _ (List.getElem_mem hm)
  rw [wd_imp]
  have h2 : wd W (E.at .j m (elems src)[m]) (.neR (.user k) (.var .key)) := by
    simp [wd, evalR, Env.at, this.1]
  refine ⟨?_, fun _ => h2⟩
  rcases hl with ⟨rfl, rfl⟩ | ⟨p, hp, rfl⟩
  · simp [wd, evalI]
  · simp [wd, evalI, Env.at, hp, this.2]

theorem core_holds {src : Src} {W : World} {E : Env} {k v : Fn} {ifs : List Cond} {later : F} {n : Nat} {a x : Val}
    (hi : Indexed src) (hW : W.src = src) (hpm : W.perm = true) (hl : Later ifs later) (hn : E.int .i = n)
    (ha : E.ref .key = a) (hx : E.ref .elem = x) :
    holds W E (core k v later) ↔ (W.map a).isSome ∧ (Last k ifs a ((elems src).drop (n + 1)) → ∃ w, W.map a = some w ∧ v x = some w) := by
  rw [core, holds_and, holds_imp, noDup_holds hi hW hl hn ha, ← both_eq]
  simp [holds, evalR, ha, hx, hpm]

theorem core_wd {src : Src} {W : World} {E : Env} {k v : Fn} {ifs : List Cond} {later : F} {n : Nat} {a x : Val}
    (hi : Indexed src) (hW : W.src = src) (hpm : W.perm = true) (hl : Later ifs later) (hn : E.int .i = n)
    (ha : E.ref .key = a) (hx : E.ref .elem = x) :
    wd W E (core k v later) ↔
      ((W.map a).isSome → wd W E (noDup k later) ∧ (Last k ifs a ((elems src).drop (n + 1)) → (v x).isSome)) := by
  rw [core, wd_and, wd_imp, noDup_holds hi hW hl hn ha]
  have h1 : wd W E (.inMap (.var .key)) := ⟨rfl, hpm⟩
  have h2 : holds W E (.inMap (.var .key)) ↔ (W.map a).isSome := by simp [holds, evalR, ha]
  have h3 : wd W E (.eqR (.lookup (.var .key)) (.user v)) ↔ (W.map a).isSome ∧ (v x).isSome := by
    simp [wd, evalR, ha, hx, hpm]
  rw [h2, h3]
  constructor
  · exact fun h hm => ⟨(h.2 hm).1, fun hd => ((h.2 hm).2 hd).2⟩
  · exact fun h => ⟨h1, fun hm => ⟨(h hm).1, fun hd => ⟨hm, (h hm).2 hd⟩⟩⟩

/-- The environment with an element and its key. -/
def Env.withKey (E : Env) (n : Nat) (x a : Val) : Env :=
  { int := (E.at .i n x).int, ref := fun y => if y = .key then a else (E.at .i n x).ref y }

theorem dict_known {src : Src} {k v : Fn} {ifs : List Cond} {ss : List Stmt} (h : translateDict src k v ifs = .ok ss)
    (hd : ∀ kvs, src ≠ .dict kvs) (W : World) :
    known src false W ss ↔ W.src = src ∧ W.typ = true ∧ W.perm = true ∧ DictFacts k v ifs W.map (elems src) := by
  obtain ⟨hi, later, per, hl, rfl, hcase⟩ := dict_parts h hd
  simp only [known]
  by_cases hW : W.src = src
  · by_cases hpm : W.perm = true
    · rw [holds_and, holds_all hi hW]
      have : (∀ n (h : n < (elems src).length), holds W (env₀.at .i n (elems src)[n]) (.bind .key (.user k) per)) ↔
          DictFacts k v ifs W.map (elems src) := by
        unfold DictFacts
        rw [← forall_split (Q := fun x n post => ∃ a, k x = some a ∧ (passes ifs x = some true →
          (W.map a).isSome ∧ ((∀ y ∈ post, passes ifs y = some true → ∃ b, k y = some b ∧ b ≠ a) →
            ∃ w, W.map a = some w ∧ v x = some w)))]
        refine forall_congr' fun n => forall_congr' fun hn => ?_
        rw [holds, show evalR W (env₀.at .i n (elems src)[n]) (.user k) = k (elems src)[n] from rfl]
        cases hk : k (elems src)[n] with
        | none => simp
        | some a =>
          simp only [Option.some.injEq, exists_eq_left']
          have hc := core_holds (v := v) (k := k) (E := env₀.withKey n (elems src)[n] a) (x := (elems src)[n]) (a := a) hi hW hpm hl rfl rfl rfl
          rcases hcase with ⟨rfl, rfl⟩ | ⟨p, hp, rfl⟩
          · simp only [Last, passes, true_implies] at hc ⊢
            exact hc
          · rw [holds_imp, ← hp]
            exact imp_congr Iff.rfl hc
      rw [this]
      simp only [hW, hpm, true_and, and_true, implies_true, holds]
    · simp [hpm]
  · simp [hW]

/-- Keys and filters of all elements are well-defined, values where no later element has the same key. -/
def DictFine (k v : Fn) (ifs : List Cond) (xs : List Val) : Prop :=
  ∀ pre x post, xs = pre ++ x :: post → ∃ a, k x = some a ∧ (passes ifs x).isSome ∧ (passes ifs x = some true →
    ((∀ y ∈ post, passes ifs y = some true → ∃ b, k y = some b ∧ b ≠ a) → (v x).isSome))

theorem dict_wd {src : Src} {k v : Fn} {ifs : List Cond} {ss : List Stmt} (h : translateDict src k v ifs = .ok ss)
    (hd : ∀ kvs, src ≠ .dict kvs) : accepted src false ss ↔ DictFine k v ifs (elems src) := by
  obtain ⟨hi, later, per, hl, rfl, hcase⟩ := dict_parts h hd
  clear h
  simp only [accepted, and_true]
  have hsplit := forall_split (xs := elems src) (Q := fun x n post => ∃ a, k x = some a ∧ (passes ifs x).isSome ∧
    (passes ifs x = some true → ((∀ y ∈ post, passes ifs y = some true → ∃ b, k y = some b ∧ b ≠ a) → (v x).isSome)))
  constructor
  · intro h
    replace h := h (built src [] (fun _ => True) (fun _ => some .none)) rfl (fun _ => rfl)
    rw [wd_and, wd_all hi rfl] at h
    unfold DictFine
    rw [← hsplit]
    intro n hn
    replace h := h.2 rfl n hn
    rw [wd] at h
    revert h
    rw [show ∀ W, evalR W (env₀.at .i n (elems src)[n]) (.user k) = k (elems src)[n] from fun _ => rfl]
    cases hk : k (elems src)[n] with
    | none => exact fun h => h.elim
    | some a =>
      intro h
      refine ⟨a, rfl, ?_⟩
      have hc := core_wd (W := built src [] (fun _ => True) (fun _ => some .none)) (v := v) (k := k)
        (E := env₀.withKey n (elems src)[n] a) (x := (elems src)[n]) (a := a) hi rfl rfl hl rfl rfl rfl
      rcases hcase with ⟨rfl, rfl⟩ | ⟨p, hp, rfl⟩
      · exact ⟨rfl, fun _ => (hc.1 h rfl).2⟩
      · replace h := wd_imp.1 h
        rw [← hp]
        exact ⟨h.1, fun hq => (hc.1 (h.2 hq) rfl).2⟩
  · intro h W hW hpm
    have hpm := hpm trivial
    have hkx : ∀ y ∈ elems src, (k y).isSome ∧ (passes ifs y).isSome := by
      intro y hy
      obtain ⟨pre, post, hs⟩ := List.append_of_mem hy
      obtain ⟨a, h1, h2, _⟩ := h pre y post hs
      exact ⟨by rw [h1]; rfl, h2⟩
    have h := hsplit.2 h
    rw [wd_and, wd_all hi hW]
    refine ⟨trivial, fun _ n hn => ?_⟩
    obtain ⟨a, hk, hps, hv⟩ := h n hn
    rw [wd, show evalR W (env₀.at .i n (elems src)[n]) (.user k) = k (elems src)[n] from rfl, hk]
    have hc := core_wd (v := v) (k := k) (E := env₀.withKey n (elems src)[n] a) (x := (elems src)[n]) (a := a) hi hW hpm hl rfl rfl rfl
    rcases hcase with ⟨rfl, rfl⟩ | ⟨p, hp, rfl⟩
    · exact hc.2 fun hm => ⟨noDup_wd hi hW hl hkx, hv rfl⟩
    · refine wd_imp.2 ⟨?_, fun hq => hc.2 fun hm => ⟨noDup_wd hi hW hl hkx, hv ?_⟩⟩
      · exact (congrArg Option.isSome (hp _)).trans hps
      · exact (hp _).symm.trans hq

/-! Dicts that Python builds -/

theorem pair_some {k v : Fn} {x a b : Val} (ha : k x = some a) (hb : v x = some b) : pair k v x = some (a, b) := by
  simp [pair, ha, hb]

theorem pair_isSome {k v : Fn} {x : Val} : (pair k v x).isSome ↔ (k x).isSome ∧ (v x).isSome := by
  unfold pair
  cases k x <;> cases v x <;> simp

theorem asMap_isSome {d : List (Val × Val)} {a : Val} : (asMap d a).isSome ↔ ∃ b, (a, b) ∈ d := by
  induction d with
  | nil => simp [asMap]
  | cons p d ih =>
    obtain ⟨c, w⟩ := p
    unfold asMap at ih ⊢
    by_cases h : c = a
    · subst h
      simp only [List.find?_cons, decide_true, Option.map_some, Option.isSome_some, true_iff]
      exact ⟨w, by simp⟩
    · simp [h, ih, Ne.symm h]

/-- The value at a key comes from the last element that passes and has the key. -/
theorem asMap_last {E : Val → Val → Bool} {k v : Fn} {ifs : List Cond} {xs : List Val} {d : List (Val × Val)}
    (h : dictComp E k v ifs xs = some d) (hid : Identity E k xs) {pre : List Val} {x : Val} {post : List Val}
    (hs : xs = pre ++ x :: post) {a b : Val} (hk : k x = some a) (hv : v x = some b) (hp : passes ifs x = some true)
    (hl : Last k ifs a post) : asMap d a = some b := by
  unfold dictComp at h
  cases hc : comp (pair k v) ifs xs with
  | none => rw [hc] at h; cases h
  | some ps =>
    rw [hc] at h
    cases h
    rw [asMap_fold]
    · subst hs
      rw [comp_append] at hc
      cases h1 : comp (pair k v) ifs pre with
      | none => rw [h1] at hc; cases hc
      | some p1 =>
        cases h2 : comp (pair k v) ifs post with
        | none => simp [h1, comp, hp, h2] at hc
        | some p2 =>
          simp only [h1, comp, hp, h2, pair_some hk hv, Option.bind_some, Option.map_some, Option.some.injEq] at hc
          subst hc
          have hnone : p2.reverse.find? (fun p => p.1 = a) = none := by
            rw [List.find?_eq_none]
            intro q hq
            rw [List.mem_reverse, mem_comp h2] at hq
            obtain ⟨y, hy, hpy, hpair⟩ := hq
            obtain ⟨c, hc, hne⟩ := hl y hy hpy
            have : q.1 = c := by
              unfold pair at hpair
              rw [hc] at hpair
              simp only at hpair
              cases hvy : v y with
              | none => rw [hvy] at hpair; cases hpair
              | some w => rw [hvy] at hpair; cases hpair; rfl
            simp [this, hne]
          simp [asMap, List.find?_append, hnone]
    · have hmem : ∀ c ∈ ps.map Prod.fst, ∃ y ∈ xs, k y = some c := by
        intro c hc'
        obtain ⟨q, hq, rfl⟩ := List.mem_map.1 hc'
        obtain ⟨y, hy, _, hpair⟩ := (mem_comp hc q).1 hq
        refine ⟨y, hy, ?_⟩
        unfold pair at hpair
        cases hky : k y with
        | none => rw [hky] at hpair; cases hpair
        | some c =>
          cases hvy : v y with
          | none => rw [hky, hvy] at hpair; cases hpair
          | some w => rw [hky, hvy] at hpair; cases hpair; rfl
      intro c hc1 e he
      obtain ⟨y, hy, h1⟩ := hmem c (by simpa using hc1)
      obtain ⟨z, hz, h2⟩ := hmem e (by simpa using he)
      exact hid y hy z hz c e h1 h2

/-- A key that occurs has a last element. -/
theorem last_split {k : Fn} {ifs : List Cond} {a : Val} {xs : List Val} (hk : ∀ x ∈ xs, (k x).isSome)
    (h : ∃ x ∈ xs, passes ifs x = some true ∧ k x = some a) :
    ∃ pre x post, xs = pre ++ x :: post ∧ passes ifs x = some true ∧ k x = some a ∧ Last k ifs a post := by
  induction xs with
  | nil => obtain ⟨x, hx, _⟩ := h; cases hx
  | cons y xs ih =>
    by_cases hex : ∃ x ∈ xs, passes ifs x = some true ∧ k x = some a
    · obtain ⟨pre, x, post, hs, h1, h2, h3⟩ := ih (fun x hx => hk x (List.mem_cons_of_mem _ hx)) hex
      exact ⟨y :: pre, x, post, by rw [hs]; rfl, h1, h2, h3⟩
    · obtain ⟨x, hx, h1, h2⟩ := h
      rcases List.mem_cons.1 hx with rfl | hx
      · refine ⟨[], x, xs, rfl, h1, h2, fun z hz hp => ?_⟩
        obtain ⟨b, hb⟩ := Option.isSome_iff_exists.1 (hk z (List.mem_cons_of_mem _ hz))
        exact ⟨b, hb, fun he => hex ⟨z, hz, hp, he ▸ hb⟩⟩
      · exact absurd ⟨x, hx, h1, h2⟩ hex

/-- The keys of the dict are those of elements that pass. -/
theorem asMap_keys {E : Val → Val → Bool} {k v : Fn} {ifs : List Cond} {xs : List Val} {d : List (Val × Val)}
    (h : dictComp E k v ifs xs = some d) {a : Val} (ha : (asMap d a).isSome) :
    ∃ x ∈ xs, passes ifs x = some true ∧ k x = some a := by
  unfold dictComp at h
  cases hc : comp (pair k v) ifs xs with
  | none => rw [hc] at h; cases h
  | some ps =>
    rw [hc] at h
    cases h
    have hfold : ∀ (ps d : List (Val × Val)) (b : Val),
        (a, b) ∈ ps.foldl (fun d p => setKey E d p.1 p.2) d → a ∈ d.map Prod.fst ∨ a ∈ ps.map Prod.fst := by
      intro ps
      induction ps with
      | nil => exact fun d b h => .inl (List.mem_map_of_mem (f := Prod.fst) h)
      | cons p ps ih =>
        intro d b h
        rcases ih _ b h with h | h
        · obtain ⟨q, hq, rfl⟩ := List.mem_map.1 h
          rcases setKey_keys d p.1 p.2 q hq with h | h
          · exact .inr (by simp [h])
          · exact .inl h
        · exact .inr (by simp only [List.map_cons, List.mem_cons]; exact .inr h)
    obtain ⟨b, hb⟩ := asMap_isSome.1 ha
    rcases hfold ps [] b hb with h | h
    · simp at h
    · obtain ⟨q, hq, rfl⟩ := List.mem_map.1 h
      obtain ⟨y, hy, hp, hpair⟩ := (mem_comp hc q).1 hq
      refine ⟨y, hy, hp, ?_⟩
      unfold pair at hpair
      cases hky : k y with
      | none => rw [hky] at hpair; cases hpair
      | some c =>
        cases hvy : v y with
        | none => rw [hky, hvy] at hpair; cases hpair
        | some w => rw [hky, hvy] at hpair; cases hpair; rfl

end Nagini.Comp
