import Verif.Spec.For

set_option linter.unusedVariables false
set_option linter.unusedSimpArgs false

namespace Nagini.For

variable {V S : Type}

/-! The contract of `__next__` -/

theorem seqAt_nat (l : List V) (n : Nat) : seqAt l (n : Int) = l[n]? := by
  simp [seqAt]

theorem next_more {ty : V → Prop} {xs : List V} {n : Nat} {it it' : It V} {res : V} {err : Bool}
    (h : NextPost ty it it' res err) (ha : At xs n it) (hn : n < xs.length) :
    err = false ∧ At xs (n + 1) it' ∧ xs[n]? = some res ∧ ty res := by
  subst ha
  have herr : err = false := by
    cases err with
    | false => rfl
    | true =>
      have := h.stops.2 rfl
      simp only at this
      omega
  have hlist : it'.list = xs := h.same
  have hidx : it'.idx = (n : Int) + 1 := h.inc herr
  have hprev := h.prev herr
  have hval := h.value (by rw [hlist]; omega)
  refine ⟨herr, ?_, ?_, h.typed (by rw [hlist]; omega)⟩
  · unfold At
    cases it'
    simp only at hlist hidx hprev
    subst hlist hidx
    simp only [It.mk.injEq, true_and]
    refine ⟨by omega, ?_⟩
    rw [hprev, show (n : Int) + 1 - 1 = (n : Int) by omega, seqTake]
    simp
  · have := hval.1
    rwa [hlist, hidx, show (n : Int) + 1 - 1 = (n : Int) by omega, seqAt_nat] at this

theorem next_end {ty : V → Prop} {xs : List V} {it it' : It V} {res : V} {err : Bool}
    (h : NextPost ty it it' res err) (hl : it.list = xs) (hi : it.idx = (xs.length : Int)) :
    err = true ∧ AtEnd xs it' ∧ (xs ≠ [] → xs[xs.length - 1]? = some res ∧ ty res) := by
  have herr : err = true := h.stops.1 (by rw [hl, hi])
  have hlist : it'.list = xs := h.same.trans hl
  have hidx := h.idxAll herr
  have hprev := h.prevAll herr
  refine ⟨herr, ?_, fun hne => ?_⟩
  · unfold AtEnd
    cases it'
    simp only at hlist hidx hprev
    subst hlist
    simp [hidx, hprev]
  · have hpos : 0 < xs.length := List.length_pos_iff.2 hne
    have hlen : (it'.list.length : Int) > 0 := by rw [hlist]; omega
    refine ⟨?_, h.typed hlen⟩
    have := (h.value hlen).1
    rwa [hidx, hlist, show (xs.length : Int) - 1 = ((xs.length - 1 : Nat) : Int) by omega, seqAt_nat] at this

theorem mem_take_succ {xs : List V} {n : Nat} (hn : n < xs.length) (r : V) :
    r ∈ xs.take (n + 1) ↔ r ∈ xs.take n ∨ xs[n]? = some r := by
  rw [List.take_add_one, List.mem_append]
  simp [Option.mem_toList]

/-- The implementation satisfies the contract before the end. -/
theorem impl_at {ty : V → Prop} {xs : List V} (hty : ∀ x ∈ xs, ty x) {n : Nat} (hn : n ≤ xs.length) {it : It V}
    (ha : At xs n it) (d : V) :
    NextPost ty it (nextImpl d it).1 (nextImpl d it).2.1 (nextImpl d it).2.2 := by
  subst ha
  unfold nextImpl
  by_cases hlt : n < xs.length
  · rw [if_pos (by simp only; omega)]
    have hval : seqAt xs ((n : Int) + 1 - 1) = some xs[n] := by
      rw [show (n : Int) + 1 - 1 = (n : Int) by omega, seqAt_nat]
      simp [hlt]
    refine ⟨rfl, by simp only; omega, by simp only [Bool.false_eq_true, iff_false]; omega, fun _ => rfl, fun _ => by simp only; omega,
      fun _ => rfl, fun _ => by simp only; omega, nofun, nofun, fun _ => ?_, fun _ => ?_, fun r => ?_⟩
    · simp only [hval]
      exact ⟨rfl, List.getElem_mem hlt⟩
    · simp only [hval]
      exact hty _ (List.getElem_mem hlt)
    · simp only [Bool.false_eq_true, false_and, and_false, or_false, and_true]
      rw [show (n : Int) + 1 - 1 = (n : Int) by omega, seqTake, Int.toNat_natCast]
      cases n with
      | zero => simp
      | succ m =>
        rw [mem_take_succ (by omega) r, show ((m + 1 : Nat) : Int) + 1 - 2 = (m : Int) by omega, seqAt_nat]
        simp only [Nat.add_sub_cancel]
        constructor
        · rintro (h | h)
          · exact .inl h
          · exact .inr ⟨by omega, h⟩
        · rintro (h | ⟨_, h⟩)
          · exact .inl h
          · exact .inr h
  · rw [if_neg (by simp only; omega)]
    have hn : n = xs.length := by omega
    subst hn
    have hval : ∀ (h : 0 < xs.length), seqAt xs ((xs.length : Int) - 1) = some (xs[xs.length - 1]'(by omega)) := by
      intro h
      rw [show (xs.length : Int) - 1 = ((xs.length - 1 : Nat) : Int) by omega, seqAt_nat]
      rw [List.getElem?_eq_getElem]
    refine ⟨rfl, by simp only; omega, by simp, nofun, nofun, nofun, fun h => h, fun _ => rfl, fun _ => rfl, fun h => ?_, fun h => ?_,
      fun r => ?_⟩
    · simp only at h ⊢
      rw [if_pos h, hval (by omega)]
      exact ⟨rfl, List.getElem_mem _⟩
    · simp only at h ⊢
      rw [if_pos h, hval (by omega)]
      exact hty _ (List.getElem_mem _)
    · simp only [Bool.true_eq_false, and_false, false_or, true_and]
      cases hx : xs.length with
      | zero =>
        have := List.length_eq_zero_iff.1 hx
        subst this
        simp
      | succ m =>
        have h1 : xs = xs.take (m + 1) := by rw [← hx, List.take_length]
        conv => lhs; rw [h1]
        rw [mem_take_succ (by omega) r, show ((m + 1 : Nat) : Int) - 1 = (m : Int) by omega, seqAt_nat]
        simp only [Nat.add_sub_cancel]
        constructor
        · rintro (h | h)
          · exact .inl h
          · exact .inr ⟨by omega, h⟩
        · rintro (h | ⟨_, h⟩)
          · exact .inl h
          · exact .inr h

/-- The implementation satisfies the contract after the end. -/
theorem impl_end {ty : V → Prop} {xs : List V} (hty : ∀ x ∈ xs, ty x) {it : It V} (ha : AtEnd xs it) (d : V) :
    NextPost ty it (nextImpl d it).1 (nextImpl d it).2.1 (nextImpl d it).2.2 := by
  subst ha
  unfold nextImpl
  rw [if_neg (by simp only; omega)]
  have hval : ∀ (h : 0 < xs.length), seqAt xs ((xs.length : Int) - 1) = some (xs[xs.length - 1]'(by omega)) := by
    intro h
    rw [show (xs.length : Int) - 1 = ((xs.length - 1 : Nat) : Int) by omega, seqAt_nat]
    rw [List.getElem?_eq_getElem]
  refine ⟨rfl, by simp only; omega, by simp, nofun, nofun, nofun, fun h => h, fun _ => rfl, fun _ => rfl, fun h => ?_, fun h => ?_,
    fun r => ?_⟩
  · simp only at h ⊢
    rw [if_pos h, hval (by omega)]
    exact ⟨rfl, List.getElem_mem _⟩
  · simp only at h ⊢
    rw [if_pos h, hval (by omega)]
    exact hty _ (List.getElem_mem _)
  · simp only [Bool.true_eq_false, and_false, false_or, true_and]
    constructor
    · exact .inl
    · rintro (h | ⟨h, h2⟩)
      · exact h
      · rw [hval (by omega)] at h2
        cases h2
        exact List.getElem_mem _

/-! Runs -/

/-- The body of the generated loop. -/
def loopBody : List VStmt := [.body, .label .cont, .next, .assignIf]

/-- What follows the generated loop. -/
def tail (hasElse : Bool) : List VStmt :=
  [.del, .resNone] ++ (if hasElse then [.orelse] else []) ++ [.label .post, .resNone]

theorem translate_ok {k : Kind} {hasElse : Bool} {p : List VStmt} (h : translateFor k hasElse = .ok p) :
    p = [.iter, .next, .assignIf, .tmp, .loop loopBody] ++ tail hasElse := by
  unfold translateFor at h
  split at h
  · split at h
    · cases h
      simp [tail, loopBody]
    · cases h
  · cases h

theorem translate_kind {k : Kind} {hasElse : Bool} {p : List VStmt} (h : translateFor k hasElse = .ok p) :
    iterNeeds k = iterGives k + delGives k ∧ invNeeds k = iterGives k := by
  cases k <;> first | exact ⟨rfl, rfl⟩ | cases h

/-- The state after `next` and the conditional assignment. -/
def advance (L : Loop V S) (s : St V S) (it' : It V) (res : V) (err : Bool) : St V S :=
  { s with it := it', cur := res, err := err, user := if err then s.user else L.bind s.user res }

theorem exec_nextAssign {L : Loop V S} {r : List VStmt} {s s' : St V S} {o : Out} :
    Exec L (.next :: .assignIf :: r) s o s' ↔
      ∃ it' res err, NextPost L.ty s.it it' res err ∧ Exec L r (advance L s it' res err) o s' := by
  constructor
  · intro h
    cases h with
    | next _ _ _ _ it' res err hp h =>
      cases h with
      | assign _ _ _ _ he h =>
        simp only at he
        subst he
        exact ⟨it', res, false, hp, h⟩
      | noAssign _ _ _ _ he h =>
        simp only at he
        subst he
        exact ⟨it', res, true, hp, h⟩
  · rintro ⟨it', res, err, hp, h⟩
    refine .next _ _ _ _ it' res err hp ?_
    cases err with
    | false => exact .assign _ _ _ _ rfl h
    | true => exact .noAssign _ _ _ _ rfl h

/-- One iteration. -/
theorem exec_body {L : Loop V S} {s s' : St V S} {o : Out} :
    Exec L loopBody s o s' ↔
      (∃ e u it' res err, (e = .norm ∨ e = .cont) ∧ L.body s.it.prev s.user e u ∧ NextPost L.ty s.it it' res err ∧
        o = .norm ∧ s' = advance L { s with user := u } it' res err) ∨
      (∃ u, L.body s.it.prev s.user .brk u ∧ o = .goto .post ∧ s' = { s with user := u }) ∨
      (∃ n u, L.body s.it.prev s.user (.leave n) u ∧ o = .leave n ∧ s' = { s with user := u }) := by
  have fin : ∀ {t t' : St V S} {o : Out}, Exec L [.next, .assignIf] t o t' ↔ ∃ it' res err, NextPost L.ty t.it it' res err ∧
      o = .norm ∧ t' = advance L t it' res err := by
    intro t t' o
    rw [exec_nextAssign]
    constructor
    · rintro ⟨it', res, err, hp, h⟩
      cases h
      exact ⟨it', res, err, hp, rfl, rfl⟩
    · rintro ⟨it', res, err, hp, rfl, rfl⟩
      exact ⟨it', res, err, hp, .nil _⟩
  constructor
  · intro h
    cases h with
    | bodyNorm _ _ u _ _ hb h =>
      cases h with
      | label _ _ _ _ _ h =>
        obtain ⟨it', res, err, hp, rfl, rfl⟩ := fin.1 h
        exact .inl ⟨.norm, u, it', res, err, .inl rfl, hb, hp, rfl, rfl⟩
    | bodyCont _ r' _ u _ _ hb ha h =>
      simp only [after, if_true, Option.some.injEq] at ha
      subst ha
      obtain ⟨it', res, err, hp, rfl, rfl⟩ := fin.1 h
      exact .inl ⟨.cont, u, it', res, err, .inr rfl, hb, hp, rfl, rfl⟩
    | bodyBreak _ _ u hb => exact .inr (.inl ⟨u, hb, rfl, rfl⟩)
    | bodyLeave _ _ u n hb => exact .inr (.inr ⟨n, u, hb, rfl, rfl⟩)
  · rintro (⟨e, u, it', res, err, he, hb, hp, rfl, rfl⟩ | ⟨u, hb, rfl, rfl⟩ | ⟨n, u, hb, rfl, rfl⟩)
    · rcases he with rfl | rfl
      · exact .bodyNorm _ _ u _ _ hb (.label _ _ _ _ _ (fin.2 ⟨it', res, err, hp, rfl, rfl⟩))
      · exact .bodyCont _ [.next, .assignIf] _ u _ _ hb rfl (fin.2 ⟨it', res, err, hp, rfl, rfl⟩)
    · exact .bodyBreak _ _ u hb
    · exact .bodyLeave _ _ u n hb

theorem after_post (hasElse : Bool) : after .post (tail hasElse) = some [.resNone] := by
  cases hasElse <;> rfl

theorem exec_reset {L : Loop V S} {s s' : St V S} {o : Out} :
    Exec L [.resNone] s o s' ↔ o = .norm ∧ s' = { s with reset := true } := by
  constructor
  · intro h
    cases h with
    | resNone _ _ _ _ h => cases h; exact ⟨rfl, rfl⟩
  · rintro ⟨rfl, rfl⟩
    exact .resNone _ _ _ _ (.nil _)

/-- The end of the loop. -/
theorem exec_tail {L : Loop V S} {hasElse : Bool} {s s' : St V S} {o : Out} :
    Exec L (tail hasElse) s o s' ↔ ∃ e u, PyElse L hasElse s.user e u ∧ o = outOf e ∧
      s' = { s with user := u, perm := s.perm + delGives L.kind, reset := true } := by
  cases hasElse with
  | false =>
    constructor
    · intro h
      cases h with
      | del _ _ _ _ h => cases h with
        | resNone _ _ _ _ h => cases h with
          | label _ _ _ _ _ h =>
            obtain ⟨rfl, rfl⟩ := exec_reset.1 h
            exact ⟨.behind, s.user, rfl, rfl, rfl⟩
    · rintro ⟨e, u, hpe, rfl, rfl⟩
      cases e with
      | leave n => exact hpe.elim
      | behind =>
        have : u = s.user := hpe
        subst this
        exact .del _ _ _ _ (.resNone _ _ _ _ (.label _ _ _ _ _ (exec_reset.2 ⟨rfl, rfl⟩)))
  | true =>
    constructor
    · intro h
      cases h with
      | del _ _ _ _ h => cases h with
        | resNone _ _ _ _ h => cases h with
          | elseNorm _ _ u _ _ he h => cases h with
            | label _ _ _ _ _ h =>
              obtain ⟨rfl, rfl⟩ := exec_reset.1 h
              exact ⟨.behind, u, he, rfl, rfl⟩
          | elseLeave _ _ u n he => exact ⟨.leave n, u, he, rfl, rfl⟩
    · rintro ⟨e, u, hpe, rfl, rfl⟩
      cases e with
      | leave n => exact .del _ _ _ _ (.resNone _ _ _ _ (.elseLeave _ _ u n hpe))
      | behind => exact .del _ _ _ _ (.resNone _ _ _ _ (.elseNorm _ _ u _ _ hpe (.label _ _ _ _ _ (exec_reset.2 ⟨rfl, rfl⟩))))

/-- The state at the head of the loop: `n` elements were processed. -/
def Head (L : Loop V S) (n : Nat) (u : S) (s : St V S) : Prop :=
  (n < L.contents.length ∧ s.err = false ∧ At L.contents (n + 1) s.it ∧ L.contents[n]? = some s.cur ∧ s.user = L.bind u s.cur) ∨
  (n = L.contents.length ∧ s.err = true ∧ AtEnd L.contents s.it ∧ s.user = u ∧
    (L.contents ≠ [] → L.contents[L.contents.length - 1]? = some s.cur))

/-- From an iterator that returned `n` elements to the head of the loop. -/
theorem head_of_next {L : Loop V S} {n : Nat} {s : St V S} (hn : n ≤ L.contents.length) (ha : At L.contents n s.it)
    {it' : It V} {res : V} {err : Bool} (hp : NextPost L.ty s.it it' res err) : Head L n s.user (advance L s it' res err) := by
  by_cases hlt : n < L.contents.length
  · obtain ⟨rfl, h2, h3, _⟩ := next_more hp ha hlt
    exact .inl ⟨hlt, rfl, h2, h3, rfl⟩
  · have hn : n = L.contents.length := by omega
    have hl : s.it.list = L.contents := by rw [ha]
    have hi : s.it.idx = (L.contents.length : Int) := by rw [ha, hn]
    obtain ⟨rfl, h2, h3⟩ := next_end hp hl hi
    exact .inr ⟨hn, rfl, h2, rfl, fun h => (h3 h).1⟩

theorem drop_cons {xs : List V} {n : Nat} {x : V} (hlt : n < xs.length) (hc : xs[n]? = some x) :
    xs.drop n = x :: xs.drop (n + 1) := by
  rw [List.getElem?_eq_getElem hlt] at hc
  rw [List.drop_eq_getElem_cons hlt, Option.some.inj hc]

/-- Permission and result after the loop. -/
def Final (L : Loop V S) (p : Int) (done : Bool) (e : PyEnd) (s' : St V S) : Prop :=
  s'.perm = (if done then p + delGives L.kind else p) ∧ (e = .behind → s'.reset = true)

theorem loop_sound {L : Loop V S} {hasElse : Bool} {p : List VStmt} {s s' : St V S} {o : Out} (h : Exec L p s o s') :
    p = .loop loopBody :: tail hasElse → ∀ {n : Nat} {u : S}, Head L n u s →
    ∃ e done, PyFor L hasElse (L.contents.take n) (L.contents.drop n) u e done s'.user ∧ o = outOf e ∧ Final L s.perm done e s' := by
  induction h with
  | loopStop b r s o s' he h ih =>
    intro hp n u hh
    cases hp
    rcases hh with ⟨_, h2, _⟩ | ⟨rfl, _, _, hu, _⟩
    · rw [he] at h2; cases h2
    · obtain ⟨e, v, h1, rfl, rfl⟩ := exec_tail.1 h
      rw [hu] at h1
      refine ⟨e, true, ?_, rfl, by simp [Final]⟩
      rw [List.drop_length]
      exact .done _ _ _ _ h1
  | loopNext b r s s₁ o s' he hb h ihb ih =>
    intro hp n u hh
    cases hp
    rcases hh with ⟨hlt, _, ha, hc, hu⟩ | ⟨_, h2, _⟩
    · rcases exec_body.1 hb with ⟨e, v, it', res, err, hen, hbody, hnp, _, rfl⟩ | ⟨_, _, h, _⟩ | ⟨_, _, _, h, _⟩
      · obtain ⟨e', done, hpy, rfl, hf⟩ := ih rfl (head_of_next (s := { s with user := v }) hlt ha hnp)
        refine ⟨e', done, ?_, rfl, hf⟩
        have hx := drop_cons hlt hc
        have hv : L.contents.take (n + 1) = L.contents.take n ++ [s.cur] := by
          rw [List.take_add_one, hc]
          rfl
        rw [hx]
        have hprev : s.it.prev = L.contents.take n := by rw [ha]; rfl
        rw [hprev, hu] at hbody
        rw [hv] at hpy
        exact .step _ _ _ _ v _ _ _ e hen hbody hpy
      · cases h
      · cases h
    · rw [he] at h2; cases h2
  | loopGoto b r r' s s₁ l o s' he hb ha' h ihb ih =>
    intro hp n u hh
    cases hp
    rcases hh with ⟨hlt, _, ha, hc, hu⟩ | ⟨_, h2, _⟩
    · rcases exec_body.1 hb with ⟨_, _, _, _, _, _, _, _, h, _⟩ | ⟨v, hbody, hl, rfl⟩ | ⟨_, _, _, h, _⟩
      · cases h
      · cases hl
        rw [after_post] at ha'
        cases ha'
        obtain ⟨rfl, rfl⟩ := exec_reset.1 h
        refine ⟨.behind, false, ?_, rfl, by simp [Final]⟩
        have hx := drop_cons hlt hc
        have hprev : s.it.prev = L.contents.take n := by rw [ha]; rfl
        rw [hprev, hu] at hbody
        rw [hx]
        exact .brk _ _ _ _ _ hbody
      · cases h
    · rw [he] at h2; cases h2
  | loopLeave b r s m s' he hb ihb =>
    intro hp n u hh
    cases hp
    rcases hh with ⟨hlt, _, ha, hc, hu⟩ | ⟨_, h2, _⟩
    · rcases exec_body.1 hb with ⟨_, _, _, _, _, _, _, _, h, _⟩ | ⟨_, _, h, _⟩ | ⟨k, v, hbody, hl, rfl⟩
      · cases h
      · cases h
      · cases hl
        refine ⟨.leave m, false, ?_, rfl, by simp [Final]⟩
        have hx := drop_cons hlt hc
        have hprev : s.it.prev = L.contents.take n := by rw [ha]; rfl
        rw [hprev, hu] at hbody
        rw [hx]
        exact .leave _ _ _ _ _ _ hbody
    · rw [he] at h2; cases h2
  | _ => intro hp; cases hp

/-- Some value is returned by `next`, in every state the loop reaches. -/
theorem next_exists {L : Loop V S} (hty : ∀ x ∈ L.contents, L.ty x) {n : Nat} (hn : n ≤ L.contents.length) {it : It V}
    (ha : At L.contents n it) (d : V) : ∃ it' res err, NextPost L.ty it it' res err :=
  ⟨_, _, _, impl_at hty hn ha d⟩

theorem loop_complete {L : Loop V S} {hasElse : Bool} (hty : ∀ x ∈ L.contents, L.ty x) {vis rest : List V} {u u' : S} {e : PyEnd}
    {done : Bool} (h : PyFor L hasElse vis rest u e done u') : vis = L.contents.take (L.contents.length - rest.length) →
    rest = L.contents.drop (L.contents.length - rest.length) → rest.length ≤ L.contents.length →
    ∀ {s : St V S}, Head L (L.contents.length - rest.length) u s →
    ∃ s', Exec L (.loop loopBody :: tail hasElse) s (outOf e) s' ∧ s'.user = u' ∧ Final L s.perm done e s' := by
  induction h with
  | done vis t e t' he =>
    intro _ _ _ s hh
    rcases hh with ⟨hlt, _⟩ | ⟨_, herr, _, hu, _⟩
    · simp at hlt
    · subst hu
      exact ⟨_, .loopStop _ _ _ _ _ herr (exec_tail.2 ⟨e, t', he, rfl, rfl⟩), rfl, by simp [Final]⟩
  | step vis x xs t v b e t' o ho hb hpy ih =>
    intro hv hr hle s hh
    simp only [List.length_cons] at hv hr hle hh ih
    obtain ⟨n, hn⟩ : ∃ n, n = L.contents.length - (xs.length + 1) := ⟨_, rfl⟩
    rw [← hn] at hv hr hh
    have hn1 : L.contents.length - xs.length = n + 1 := by omega
    have hlt : n < L.contents.length := by omega
    rcases hh with ⟨_, herr, ha, hc, hu⟩ | ⟨h, _⟩
    · have hx := drop_cons hlt hc
      rw [hx] at hr
      injection hr with h1 h2
      subst h1
      have hprev : s.it.prev = vis := by rw [ha, hv]; rfl
      obtain ⟨it', res, err, hnp⟩ := next_exists hty hlt ha s.cur
      rw [hn1] at ih
      obtain ⟨s', hs', hus', hf⟩ := ih (by rw [List.take_add_one, hc, ← hv]; rfl) h2 (by omega)
        (head_of_next (s := { s with user := v }) hlt ha hnp)
      refine ⟨s', .loopNext _ _ _ _ _ _ herr ?_ hs', hus', hf⟩
      exact exec_body.2 (.inl ⟨o, v, it', res, err, ho, by rw [hprev, hu]; exact hb, hnp, rfl, rfl⟩)
    · omega
  | brk vis x xs t v hb =>
    intro hv hr hle s hh
    simp only [List.length_cons] at hv hr hle hh
    obtain ⟨n, hn⟩ : ∃ n, n = L.contents.length - (xs.length + 1) := ⟨_, rfl⟩
    rw [← hn] at hv hr hh
    have hlt : n < L.contents.length := by omega
    rcases hh with ⟨_, herr, ha, hc, hu⟩ | ⟨h, _⟩
    · have hx := drop_cons hlt hc
      rw [hx] at hr
      injection hr with h1 h2
      subst h1
      have hprev : s.it.prev = vis := by rw [ha, hv]; rfl
      have hbody : Exec L loopBody s (.goto .post) { s with user := v } :=
        exec_body.2 (.inr (.inl ⟨v, by rw [hprev, hu]; exact hb, rfl, rfl⟩))
      exact ⟨_, .loopGoto _ _ _ _ _ .post _ _ herr hbody (after_post hasElse) (exec_reset.2 ⟨rfl, rfl⟩), rfl, by simp [Final]⟩
    · omega
  | leave vis x xs t v m hb =>
    intro hv hr hle s hh
    simp only [List.length_cons] at hv hr hle hh
    obtain ⟨n, hn⟩ : ∃ n, n = L.contents.length - (xs.length + 1) := ⟨_, rfl⟩
    rw [← hn] at hv hr hh
    have hlt : n < L.contents.length := by omega
    rcases hh with ⟨_, herr, ha, hc, hu⟩ | ⟨h, _⟩
    · have hx := drop_cons hlt hc
      rw [hx] at hr
      injection hr with h1 h2
      subst h1
      have hprev : s.it.prev = vis := by rw [ha, hv]; rfl
      exact ⟨{ s with user := v }, .loopLeave _ _ _ _ _ herr
        (exec_body.2 (.inr (.inr ⟨m, v, by rw [hprev, hu]; exact hb, rfl, rfl⟩))), rfl, by simp [Final]⟩
    · omega

/-! The whole statement -/

theorem exec_start {L : Loop V S} {r : List VStmt} {s s' : St V S} {o : Out} :
    Exec L ([.iter, .next, .assignIf, .tmp] ++ r) s o s' ↔ iterNeeds L.kind ≤ s.perm ∧
      ∃ it' res err, NextPost L.ty ⟨L.contents, 0, []⟩ it' res err ∧
      Exec L r { advance L { s with perm := s.perm - iterNeeds L.kind + iterGives L.kind } it' res err with tmp := L.contents } o s' := by
  constructor
  · intro h
    cases h with
    | iter _ _ _ _ it h1 h2 h3 h4 h =>
      cases it
      simp only at h2 h3 h4
      subst h2 h3 h4
      obtain ⟨it', res, err, hp, h⟩ := exec_nextAssign.1 h
      cases h with
      | tmp _ _ _ _ h => exact ⟨h1, it', res, err, hp, h⟩
  · rintro ⟨h1, it', res, err, hp, h⟩
    exact .iter _ _ _ _ ⟨L.contents, 0, []⟩ h1 rfl rfl rfl (exec_nextAssign.2 ⟨it', res, err, hp, .tmp _ _ _ _ h⟩)

theorem at_zero (xs : List V) : At xs 0 ⟨xs, 0, []⟩ := by simp [At]

theorem for_sound {L : Loop V S} {hasElse : Bool} {p : List VStmt} (ht : translateFor L.kind hasElse = .ok p) {s s' : St V S}
    {o : Out} (h : Exec L p s o s') : iterNeeds L.kind ≤ s.perm ∧ ∃ e done, PyFor L hasElse [] L.contents s.user e done s'.user ∧
      o = outOf e ∧ s'.perm = (if done then s.perm else s.perm - delGives L.kind) ∧ (e = .behind → s'.reset = true) := by
  have hk := translate_kind ht
  rw [translate_ok ht] at h
  obtain ⟨h1, it', res, err, hp, h⟩ := exec_start.1 h
  refine ⟨h1, ?_⟩
  have hh := head_of_next (L := L) (n := 0) (s := { s with it := ⟨L.contents, 0, []⟩, perm := s.perm - iterNeeds L.kind + iterGives L.kind })
    (Nat.zero_le _) (at_zero _) hp
  obtain ⟨e, done, hpy, rfl, hf⟩ := loop_sound (hasElse := hasElse) h rfl (n := 0) (u := s.user) hh
  refine ⟨e, done, hpy, rfl, ?_, hf.2⟩
  rw [hf.1]
  cases done <;> simp only [advance, Bool.false_eq_true, if_true, if_false] <;> omega

theorem for_complete {L : Loop V S} {hasElse : Bool} {p : List VStmt} (ht : translateFor L.kind hasElse = .ok p)
    (hty : ∀ x ∈ L.contents, L.ty x) {s : St V S} (hperm : iterNeeds L.kind ≤ s.perm) {u' : S} {e : PyEnd} {done : Bool}
    (h : PyFor L hasElse [] L.contents s.user e done u') : ∃ s', Exec L p s (outOf e) s' ∧ s'.user = u' := by
  rw [translate_ok ht]
  have hnp := impl_at hty (Nat.zero_le _) (at_zero L.contents) s.cur
  have hh := head_of_next (L := L) (n := 0) (s := { s with it := ⟨L.contents, 0, []⟩, perm := s.perm - iterNeeds L.kind + iterGives L.kind })
    (Nat.zero_le _) (at_zero _) hnp
  have hz : L.contents.length - L.contents.length = 0 := Nat.sub_self _
  obtain ⟨s', hs, hu, _⟩ := loop_complete hty h (by rw [hz]; rfl) (by rw [hz]; rfl) (Nat.le_refl _) (s := { advance L
    { s with it := ⟨L.contents, 0, []⟩, perm := s.perm - iterNeeds L.kind + iterGives L.kind } _ _ _ with tmp := L.contents })
    (by rw [hz]; exact hh)
  exact ⟨s', exec_start.2 ⟨hperm, _, _, _, hnp, hs⟩, hu⟩

/-! The invariant -/

theorem loop_parts {k : Kind} {hasElse : Bool} {pre b rest : List VStmt} (ht : translateFor k hasElse = .ok (pre ++ .loop b :: rest)) :
    pre = [.iter, .next, .assignIf, .tmp] ∧ b = loopBody := by
  have hp := translate_ok ht
  have tl : ∀ x ∈ tail hasElse, ∀ b, x ≠ .loop b := by
    cases hasElse <;> simp [tail]
  match pre, hp with
  | [], hp => simp at hp
  | [_], hp => simp at hp
  | [_, _], hp => simp at hp
  | [_, _, _], hp => simp at hp
  | [_, _, _, _], hp =>
    simp at hp
    obtain ⟨rfl, rfl, rfl, rfl, hb, _⟩ := hp
    exact ⟨rfl, hb⟩
  | _ :: _ :: _ :: _ :: _ :: pre, hp =>
    simp at hp
    have hm : VStmt.loop b ∈ tail hasElse := by rw [← hp.2.2.2.2.2]; simp
    exact absurd rfl (tl _ hm b)

theorem reaches_parts {L : Loop V S} {hasElse : Bool} {p : List VStmt} (ht : translateFor L.kind hasElse = .ok p) {s t : St V S}
    {k : Nat} (h : Reaches L p s k t) : ∃ s₁, Exec L [.iter, .next, .assignIf, .tmp] s .norm s₁ ∧ Heads L loopBody s₁ k t := by
  obtain ⟨pre, b, rest, s₁, rfl, h1, h2⟩ := h
  obtain ⟨rfl, rfl⟩ := loop_parts ht
  exact ⟨s₁, h1, h2⟩

theorem reaches_head {L : Loop V S} {hasElse : Bool} {p : List VStmt} (ht : translateFor L.kind hasElse = .ok p) {s t : St V S}
    {k : Nat} (h : Reaches L p s k t) : (∃ u, Head L k u t) ∧ t.perm = s.perm - delGives L.kind ∧ t.tmp = L.contents ∧
      iterNeeds L.kind ≤ s.perm := by
  have hk := translate_kind ht
  obtain ⟨s₁, h1, h2⟩ := reaches_parts ht h
  obtain ⟨hn, it', res, err, hp, h1⟩ := exec_start (r := []).1 h1
  cases h1
  have hh := head_of_next (L := L) (n := 0) (s := { s with it := ⟨L.contents, 0, []⟩, perm := s.perm - iterNeeds L.kind + iterGives L.kind })
    (Nat.zero_le _) (at_zero _) hp
  clear h
  induction h2 with
  | first => exact ⟨⟨s.user, hh⟩, by simp only [advance]; omega, rfl, hn⟩
  | again k t t' hk' herr hb ih =>
    obtain ⟨⟨u, hh⟩, h2, h3, h4⟩ := ih
    rcases exec_body.1 hb with ⟨e, v, it', res, err, hen, hbody, hnp, _, rfl⟩ | ⟨_, _, h, _⟩ | ⟨_, _, _, h, _⟩
    · rcases hh with ⟨hlt, _, ha, hc, hu⟩ | ⟨_, he, _⟩
      · exact ⟨⟨v, head_of_next (s := { t with user := v }) hlt ha hnp⟩, h2, h3, h4⟩
      · rw [herr] at he; cases he
    · cases h
    · cases h

/-- The exact meaning of the invariant. -/
theorem invariant_iff {L : Loop V S} {s : St V S} : holdsAll (invariant L) s ↔
    invNeeds L.kind ≤ s.perm ∧ s.tmp = L.contents ∧
    ((∃ n, n < L.contents.length ∧ s.err = false ∧ At L.contents (n + 1) s.it ∧ L.contents[n]? = some s.cur ∧ L.ty s.cur ∧
        L.bound s.user s.cur) ∨
     (s.err = true ∧ AtEnd L.contents s.it ∧ (L.contents ≠ [] → L.contents[L.contents.length - 1]? = some s.cur ∧ L.ty s.cur ∧
        L.bound s.user s.cur))) := by
  constructor
  · intro h
    simp only [holdsAll, invariant, List.forall_mem_cons, List.not_mem_nil, false_imp_iff, implies_true, and_true, Asrt.pure, Asrt.imp,
      current] at h
    obtain ⟨h1, h2, h3, h4, h5, h6, h7, h8, h9, h10, h11, h12, h13, h14, h15⟩ := h
    refine ⟨h1, h3, ?_⟩
    rw [h2] at h6 h7 h8 h9 h10 h11 h12 h13 h14 h15
    cases he : s.err with
    | false =>
      have h4 := h4 he
      have h6 := h6 he
      have h8 := h8 h6
      have h9 := h9 h6
      have h11 := h11 he
      obtain ⟨n, hn⟩ : ∃ n : Nat, s.it.idx = (n : Int) + 1 := ⟨(s.it.idx - 1).toNat, by omega⟩
      have e1 : s.it.idx - 1 = (n : Int) := by omega
      refine .inl ⟨n, by omega, rfl, ?_, ?_, h12 h6, h13 h6⟩
      · rw [e1, seqTake, Int.toNat_natCast] at h11
        unfold At
        generalize s.it = it at *
        cases it
        simp only at *
        simp [h2, h11, hn]
      · rwa [e1, seqAt_nat] at h9
    | true =>
      have h5 := h5 he
      have h14 := h14 he
      refine .inr ⟨rfl, ?_, fun hne => ?_⟩
      · unfold AtEnd
        rw [h14] at h5
        generalize s.it = it at *
        cases it
        simp only at *
        simp [h2, h14, h5]
      · have hpos : (L.contents.length : Int) > 0 := by
          have := List.length_pos_iff.2 hne
          omega
        refine ⟨?_, h12 hpos, h13 hpos⟩
        have h9 := h9 hpos
        rw [h14] at h5
        rwa [h5, show (L.contents.length : Int) - 1 = ((L.contents.length - 1 : Nat) : Int) by omega, seqAt_nat] at h9
  · rintro ⟨h1, h3, h | h⟩
    · obtain ⟨n, hn, he, ha, hc, ht, hb⟩ := h
      simp only [holdsAll, invariant, List.forall_mem_cons, List.not_mem_nil, false_imp_iff, implies_true, and_true, Asrt.pure, Asrt.imp,
        current, he]
      rw [ha]
      have e1 : ((n + 1 : Nat) : Int) - 1 = (n : Int) := by omega
      simp only [e1, seqAt_nat, Nat.add_sub_cancel, List.length_take, seqTake, Int.toNat_natCast]
      exact ⟨h1, trivial, h3, fun _ => by omega, nofun, fun _ => by omega, by omega, fun _ => by omega, fun _ => hc,
        fun _ => List.mem_of_getElem? hc, fun _ => trivial, fun _ => ht, fun _ => hb, nofun, fun h => by omega⟩
    · obtain ⟨he, ha, hx⟩ := h
      simp only [holdsAll, invariant, List.forall_mem_cons, List.not_mem_nil, false_imp_iff, implies_true, and_true, Asrt.pure, Asrt.imp,
        current, he]
      rw [ha]
      simp only
      have hne : (L.contents.length : Int) > 0 → L.contents ≠ [] := by
        intro h e
        rw [e] at h
        simp at h
      have hc : (L.contents.length : Int) > 0 → seqAt L.contents ((L.contents.length : Int) - 1) = some s.cur := by
        intro h
        rw [show (L.contents.length : Int) - 1 = ((L.contents.length - 1 : Nat) : Int) by omega, seqAt_nat]
        exact (hx (hne h)).1
      refine ⟨h1, trivial, h3, nofun, fun _ => trivial, nofun, by omega, fun h => h, hc, fun h => ?_, nofun, fun h => (hx (hne h)).2.1,
        fun h => (hx (hne h)).2.2, fun _ => trivial⟩
      exact List.mem_of_getElem? (hx (hne h)).1

theorem invariant_wd (L : Loop V S) (s : St V S) : wdAll (invariant L) s := by
  simp only [wdAll, invariant, Asrt.pure, Asrt.imp, current, true_and, and_true, implies_true]
  intro h1 h2 h3 h4 h5 h6 h7 h8 hpos
  have h8 := h8 hpos
  obtain ⟨n, hn⟩ : ∃ n : Nat, s.it.idx - 1 = (n : Int) := ⟨(s.it.idx - 1).toNat, by omega⟩
  rw [hn, seqAt_nat, List.getElem?_eq_getElem (by omega)]
  rfl

end Nagini.For
