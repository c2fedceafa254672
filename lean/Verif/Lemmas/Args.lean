import Verif.Spec.Args
import Mathlib.Data.List.Nodup

set_option linter.unusedVariables false
set_option linter.unusedSimpArgs false

namespace Nagini.Args

variable {E : Type}

theorem unpackPos_ok : ∀ (ps : List (Pos E)) order vs, unpackPos ps = .ok (order, vs) →
    order = ps.map Pos.ex ∧ vs = ps.flatMap Pos.values
  | [], order, vs, h => by
    simp only [unpackPos, Except.ok.injEq, Prod.mk.injEq] at h
    simp [← h.1, ← h.2]
  | .plain e :: rest, order, vs, h => by
    rw [unpackPos] at h
    split at h
    · rename_i o w hr
      simp only [Except.ok.injEq, Prod.mk.injEq] at h
      obtain ⟨h1, h2⟩ := unpackPos_ok rest _ _ hr
      simp [← h.1, ← h.2, h1, h2, Pos.ex, Pos.values]
    · cases h
  | .star e none :: _, order, vs, h => by simp [unpackPos] at h
  | .star e (some n) :: rest, order, vs, h => by
    rw [unpackPos] at h
    split at h
    · rename_i o w hr
      simp only [Except.ok.injEq, Prod.mk.injEq] at h
      obtain ⟨h1, h2⟩ := unpackPos_ok rest _ _ hr
      simp [← h.1, ← h.2, h1, h2, Pos.ex, Pos.values]
    · cases h

theorem unpackPos_total : ∀ (ps : List (Pos E)), (∀ e, Pos.star e none ∉ ps) →
    unpackPos ps = .ok (ps.map Pos.ex, ps.flatMap Pos.values)
  | [], _ => rfl
  | .plain e :: rest, h => by
    rw [unpackPos, unpackPos_total rest (fun e he => h e (List.mem_cons_of_mem _ he))]
    simp [Pos.ex, Pos.values]
  | .star e none :: _, h => absurd (List.mem_cons_self ..) (h e)
  | .star e (some n) :: rest, h => by
    rw [unpackPos, unpackPos_total rest (fun e he => h e (List.mem_cons_of_mem _ he))]
    simp [Pos.ex, Pos.values]

/-- The name of a keyword. -/
def Kw.name? : Kw E → Option String
  | .named n _ => some n
  | .unpack _ _ => none

theorem kwFold_length (keys : List String) (kw : Bool) (ks : List (Kw E)) (st : KwSt E) :
    (ks.foldl (kwStep keys kw) st).args.length = st.args.length := by
  induction ks generalizing st with
  | nil => rfl
  | cons k ks ih =>
    rw [List.foldl_cons, ih]
    cases k <;> simp only [kwStep] <;> split <;> try split
    all_goals simp

/-- Does the keyword name a parameter? -/
def Kw.hits (keys : List String) : Kw E → Bool
  | .named n _ => decide (n ∈ keys)
  | .unpack _ _ => false

theorem kwFold_order (keys : List String) (kw : Bool) (ks : List (Kw E)) (st : KwSt E) :
    (ks.foldl (kwStep keys kw) st).order = st.order ++ (ks.filter (Kw.hits keys)).map Kw.ex := by
  induction ks generalizing st with
  | nil => simp
  | cons k ks ih =>
    rw [List.foldl_cons, ih]
    cases k with
    | named n e =>
      by_cases h : n ∈ keys
      · simp [kwStep, Kw.hits, h, Kw.ex]
      · have e1 : (kwStep keys kw st (.named n e)).order = st.order := by
          simp only [kwStep, if_neg h]; split <;> rfl
        simp [e1, Kw.hits, h]
    | unpack e l =>
      have e1 : (kwStep keys kw st (.unpack e l)).order = st.order := by
        simp only [kwStep]; split <;> rfl
      simp [e1, Kw.hits]

theorem kwFold_extra (keys : List String) (ks : List (Kw E)) (st : KwSt E) :
    (ks.foldl (kwStep keys true) st).extra =
      st.extra ++ (ks.filter (fun k => !k.hits keys)).map (fun k => (k.name?, k.ex)) := by
  induction ks generalizing st with
  | nil => simp
  | cons k ks ih =>
    rw [List.foldl_cons, ih]
    cases k with
    | named n e =>
      by_cases h : n ∈ keys
      · simp [kwStep, Kw.hits, h]
      · simp [kwStep, Kw.hits, h, Kw.ex, Kw.name?]
    | unpack e l => simp [kwStep, Kw.hits, Kw.ex, Kw.name?]

theorem kwFold_get (keys : List String) (kw : Bool) (hn : keys.Nodup) (ks : List (Kw E))
    (hk : ∀ k ∈ ks, k.IsNamed) (hnd : (ks.flatMap Kw.values |>.map (·.1)).Nodup)
    (st : KwSt E) (hl : st.args.length = keys.length) (i : Nat) (n : String)
    (hi : keys[i]? = some n) :
    (∀ v, (n, v) ∈ ks.flatMap Kw.values → (ks.foldl (kwStep keys kw) st).args[i]? = some (some v)) ∧
      ((∀ v, (n, v) ∉ ks.flatMap Kw.values) →
        (ks.foldl (kwStep keys kw) st).args[i]? = st.args[i]?) := by
  induction ks generalizing st with
  | nil => simp
  | cons k ks ih =>
    have hil : i < keys.length := by
      rw [List.getElem?_eq_some_iff] at hi; exact hi.1
    have hin : n ∈ keys := List.mem_of_getElem? hi
    have hidx : keys.idxOf n = i := by
      rw [List.getElem?_eq_some_iff] at hi
      obtain ⟨h1, h2⟩ := hi
      rw [← h2]; exact hn.idxOf_getElem i h1
    cases k with
    | unpack e l => exact absurd (hk _ (List.mem_cons_self ..)) (by simp [Kw.IsNamed])
    | named m e =>
      simp only [List.flatMap_cons, Kw.values, List.singleton_append, List.map_cons,
        List.nodup_cons] at hnd
      have ih' := ih (fun k h => hk k (List.mem_cons_of_mem _ h)) hnd.2
        (kwStep keys kw st (.named m e)) (by
          rw [← hl]; simp only [kwStep]; split
          · simp
          · split <;> rfl)
      rw [List.foldl_cons]
      simp only [List.flatMap_cons, Kw.values, List.singleton_append, List.mem_cons,
        Prod.mk.injEq]
      constructor
      · rintro v (⟨rfl, rfl⟩ | hv)
        · have hno : ∀ v, (n, v) ∉ ks.flatMap Kw.values := fun v hv =>
            hnd.1 (List.mem_map.2 ⟨_, hv, rfl⟩)
          rw [ih'.2 hno]
          simp only [kwStep, if_pos hin, hidx]
          rw [List.getElem?_set_self (by omega)]
        · exact ih'.1 v hv
      · intro hno
        have h1 : m ≠ n := fun h => hno (Val.expr e) (Or.inl ⟨h.symm, rfl⟩)
        rw [ih'.2 (fun v hv => hno v (Or.inr hv))]
        simp only [kwStep]
        split
        · rename_i hm
          apply List.getElem?_set_ne
          intro h
          apply h1
          have := List.getElem?_idxOf hm
          rw [h, hi] at this
          exact (Option.some.inj this).symm
        · split <;> rfl

theorem fillDefaults_get : ∀ (as : List (Option (Val E))) (ds : List (Option E)) (vs : List (Val E)),
    fillDefaults as ds = .ok vs → vs.length = as.length ∧
      ∀ i : Nat, (∀ v : Val E, as[i]? = some (some v) → vs[i]? = some v) ∧
        (as[i]? = some none → ∃ d, ds[i]? = some (some d) ∧ vs[i]? = some (Val.expr d))
  | [], ds, vs, h => by
    simp only [fillDefaults, Except.ok.injEq] at h
    subst h; simp
  | some v :: as, ds, vs, h => by
    rw [fillDefaults] at h
    split at h
    · rename_i ws hw
      simp only [Except.ok.injEq] at h
      subst h
      obtain ⟨h1, h2⟩ := fillDefaults_get as ds.tail ws hw
      refine ⟨by simp [h1], fun i => ?_⟩
      cases i with
      | zero => simp
      | succ i =>
        have := h2 i
        simpa [List.getElem?_tail] using this
    · cases h
  | none :: as, ds, vs, h => by
    rw [fillDefaults] at h
    split at h
    · rename_i d hd
      split at h
      · rename_i ws hw
        simp only [Except.ok.injEq] at h
        subst h
        obtain ⟨h1, h2⟩ := fillDefaults_get as ds.tail ws hw
        refine ⟨by simp [h1], fun i => ?_⟩
        cases i with
        | zero =>
          rw [List.head?_eq_getElem?] at hd
          simp [hd]
        | succ i =>
          have := h2 i
          simpa [List.getElem?_tail] using this
      · cases h
    · cases h

theorem fillDefaults_total : ∀ (as : List (Option (Val E))) (ds : List (Option E)),
    (∀ i : Nat, as[i]? = some none → ∃ d, ds[i]? = some (some d)) → ∃ vs, fillDefaults as ds = .ok vs
  | [], ds, h => ⟨[], rfl⟩
  | some v :: as, ds, h => by
    obtain ⟨vs, hv⟩ := fillDefaults_total as ds.tail (fun i hi => by
      obtain ⟨d, hd⟩ := h (i + 1) (by simpa using hi)
      exact ⟨d, by rw [List.getElem?_tail]; exact hd⟩)
    exact ⟨v :: vs, by rw [fillDefaults, hv]⟩
  | none :: as, ds, h => by
    obtain ⟨vs, hv⟩ := fillDefaults_total as ds.tail (fun i hi => by
      obtain ⟨d, hd⟩ := h (i + 1) (by simpa using hi)
      exact ⟨d, by rw [List.getElem?_tail]; exact hd⟩)
    obtain ⟨d, hd⟩ := h 0 rfl
    rw [← List.head?_eq_getElem?] at hd
    exact ⟨.expr d :: vs, by rw [fillDefaults, hd]; simp only [hv]⟩

theorem wrapKw_named (keys : List String) (ks : List (Kw E)) (hk : ∀ k ∈ ks, k.IsNamed) :
    wrapKw ((ks.filter (fun k => !k.hits keys)).map (fun k => (k.name?, k.ex))) =
      .ok ((ks.flatMap Kw.values).filter fun kv => decide (kv.1 ∉ keys)) := by
  induction ks with
  | nil => rfl
  | cons k ks ih =>
    have ih := ih (fun k h => hk k (List.mem_cons_of_mem _ h))
    cases k with
    | unpack e l => exact absurd (hk _ (List.mem_cons_self ..)) (by simp [Kw.IsNamed])
    | named n e =>
      by_cases h : n ∈ keys
      · simpa [Kw.hits, h, Kw.values] using ih
      · have e1 : List.filter (fun k => !Kw.hits keys k) (Kw.named n e :: ks) =
            .named n e :: ks.filter (fun k => !k.hits keys) := by simp [Kw.hits, h]
        rw [e1, List.map_cons]
        change wrapKw ((some n, e) :: _) = _
        rw [wrapKw, ih]
        simp [Kw.values, h]

/-- The result of a successful translation. -/
theorem translateArgs_ok (s : Sig E) (recv : Bool) (ps : List (Pos E)) (ks : List (Kw E))
    (order : List E) (out : List (Val E)) (hk : ∀ k ∈ ks, k.IsNamed)
    (h : translateArgs s recv ps ks = .ok (order, out)) :
    ∃ vs, fillDefaults (ks.foldl (kwStep (if recv then s.args.tail else s.args) s.kwarg)
        ⟨ps.map Pos.ex, ((ps.flatMap Pos.values).take
            (if recv then s.pos.length - 1 else s.pos.length)).map some ++
          List.replicate ((if recv then s.args.tail else s.args).length -
            (((ps.flatMap Pos.values).take
              (if recv then s.pos.length - 1 else s.pos.length)).map some).length) none, []⟩).args
        (if recv then s.argDefaults.tail else s.argDefaults) = .ok vs ∧
      out = vs ++ ((if s.vararg then [.tuple ((ps.flatMap Pos.values).drop
          (if recv then s.pos.length - 1 else s.pos.length))] else []) ++
        (if s.kwarg then [.dict ((ks.flatMap Kw.values).filter fun kv =>
          decide (kv.1 ∉ (if recv then s.args.tail else s.args)))] else [])) ∧
      order = ps.map Pos.ex ++
        (ks.filter (Kw.hits (if recv then s.args.tail else s.args))).map Kw.ex ++
        (if s.kwarg then (ks.filter
          (fun k => !k.hits (if recv then s.args.tail else s.args))).map Kw.ex else []) := by
  rw [translateArgs] at h
  split at h
  · cases h
  · rename_i o u hu
    obtain ⟨rfl, rfl⟩ := unpackPos_ok ps _ _ hu
    dsimp only at h
    split at h
    · cases h
    · rename_i vs hvs
      refine ⟨vs, hvs, ?_⟩
      by_cases hc : (s.vararg && decide (9 < (List.drop
          (if recv = true then s.pos.length - 1 else s.pos.length)
          (List.flatMap Pos.values ps)).length)) = true
      · rw [if_pos hc] at h; cases h
      · rw [if_neg hc] at h
        split at h
        · rename_i hkw
          simp only [hkw, if_true] at h ⊢
          rw [kwFold_extra, List.nil_append, wrapKw_named _ _ hk] at h
          simp only [Except.ok.injEq, Prod.mk.injEq] at h
          constructor
          · rw [← h.2]; cases s.vararg <;> simp
          · rw [← h.1, kwFold_order]
            simp [Function.comp_def]
        · rename_i hkw
          simp only [Bool.not_eq_true] at hkw
          simp only [Except.ok.injEq, Prod.mk.injEq] at h
          constructor
          · rw [← h.2]; cases s.vararg <;> simp [hkw]
          · rw [← h.1, kwFold_order]; simp [hkw]

/-- Where each parameter of `args` gets its value from. -/
theorem translateArgs_get (s : Sig E) (recv : Bool) (r : Val E) (hr : recv = true → s.pos ≠ [])
    (ps : List (Pos E)) (ks : List (Kw E)) (hk : ∀ k ∈ ks, k.IsNamed) (hn : s.args.Nodup)
    (hnd : (ks.flatMap Kw.values |>.map (·.1)).Nodup)
    (hcl : ∀ i n, i < (withRecv recv r (ps.flatMap Pos.values)).length → s.pos[i]? = some n →
      ∀ v, (n, v) ∉ ks.flatMap Kw.values)
    (vs : List (Val E))
    (h : fillDefaults (ks.foldl (kwStep (if recv then s.args.tail else s.args) s.kwarg)
        ⟨ps.map Pos.ex, ((ps.flatMap Pos.values).take
            (if recv then s.pos.length - 1 else s.pos.length)).map some ++
          List.replicate ((if recv then s.args.tail else s.args).length -
            (((ps.flatMap Pos.values).take
              (if recv then s.pos.length - 1 else s.pos.length)).map some).length) none, []⟩).args
        (if recv then s.argDefaults.tail else s.argDefaults) = .ok vs) :
    (withRecv recv r vs).length = s.args.length ∧
    ∀ i n, s.args[i]? = some n → ∃ v, (withRecv recv r vs)[i]? = some v ∧
      ((i < s.pos.length ∧ (withRecv recv r (ps.flatMap Pos.values))[i]? = some v) ∨
        (n, v) ∈ ks.flatMap Kw.values ∨
        (i < s.pos.length → (withRecv recv r (ps.flatMap Pos.values)).length ≤ i) ∧
          (∀ w, (n, w) ∉ ks.flatMap Kw.values) ∧
          ∃ d, s.argDefaults[i]? = some (some d) ∧ v = .expr d) := by
  generalize hU : ps.flatMap Pos.values = U at *
  generalize hK : (if recv then s.args.tail else s.args) = keys at *
  generalize hN : (if recv then s.pos.length - 1 else s.pos.length) = nargs at *
  generalize hD : (if recv then s.argDefaults.tail else s.argDefaults) = dfl at *
  have hkn : keys.Nodup := by rw [← hK]; split; exacts [hn.tail, hn]
  have hlen : s.args.length = s.pos.length + s.kwonly.length := by simp [Sig.args]
  have hle : nargs ≤ keys.length := by
    rw [← hK, ← hN]; cases recv <;> simp <;> omega
  have hA : ((U.take nargs).map some ++ List.replicate (keys.length - ((U.take nargs).map some).length)
      (none : Option (Val E))).length = keys.length := by simp; omega
  obtain ⟨hl, hg⟩ := fillDefaults_get _ _ _ h
  rw [kwFold_length] at hl
  rw [hA] at hl
  -- per key
  have core : ∀ i n, keys[i]? = some n → (∀ v, i < min nargs U.length → (n, v) ∉ ks.flatMap Kw.values) →
      ∃ v, vs[i]? = some v ∧ ((i < nargs ∧ U[i]? = some v) ∨ (n, v) ∈ ks.flatMap Kw.values ∨
        (i < nargs → U.length ≤ i) ∧ (∀ w, (n, w) ∉ ks.flatMap Kw.values) ∧
          ∃ d, dfl[i]? = some (some d) ∧ v = .expr d) := by
    intro i n hi hc
    have hik : i < keys.length := by rw [List.getElem?_eq_some_iff] at hi; exact hi.1
    obtain ⟨g1, g2⟩ := kwFold_get keys s.kwarg hkn ks hk hnd ⟨ps.map Pos.ex, _, []⟩ hA i n hi
    by_cases hex : ∃ v, (n, v) ∈ ks.flatMap Kw.values
    · obtain ⟨v, hv⟩ := hex
      exact ⟨v, (hg i).1 v (g1 v hv), Or.inr (Or.inl hv)⟩
    · have hno : ∀ v, (n, v) ∉ ks.flatMap Kw.values := fun v hv => hex ⟨v, hv⟩
      have g := g2 hno
      by_cases hlt : i < min nargs U.length
      · have e1 : ((U.take nargs).map some ++ List.replicate (keys.length -
            ((U.take nargs).map some).length) (none : Option (Val E)))[i]? = some (some (U[i]'(by omega))) := by
          rw [List.getElem?_append_left (by simp; omega), List.getElem?_map,
            List.getElem?_take_of_lt (by omega), List.getElem?_eq_getElem (by omega)]
          rfl
        refine ⟨U[i]'(by omega), (hg i).1 _ (g.trans e1), Or.inl ⟨by omega, ?_⟩⟩
        exact List.getElem?_eq_getElem (by omega)
      · have e1 : ((U.take nargs).map some ++ List.replicate (keys.length -
            ((U.take nargs).map some).length) (none : Option (Val E)))[i]? = some none := by
          rw [List.getElem?_append_right (by simp; omega), List.getElem?_replicate]
          simp; omega
        obtain ⟨d, hd, hv⟩ := (hg i).2 (g.trans e1)
        exact ⟨_, hv, Or.inr (Or.inr ⟨by omega, hno, d, hd, rfl⟩)⟩
  have posOf : ∀ i n, i < s.pos.length → s.args[i]? = some n → s.pos[i]? = some n := by
    intro i n hi h
    rwa [Sig.args, List.getElem?_append_left hi] at h
  cases recv with
  | false =>
    simp only [Bool.false_eq_true, if_false] at hK hN hD
    subst hK hN hD
    simp only [withRecv, Bool.false_eq_true, if_false] at hcl ⊢
    refine ⟨hl, fun i n hi => core i n hi (fun v hlt => ?_)⟩
    exact hcl i n (by omega) (posOf i n (by omega) hi) v
  | true =>
    simp only [if_true] at hK hN hD
    subst hK hN hD
    simp only [withRecv, if_true] at hcl ⊢
    have hp : 0 < s.pos.length := List.length_pos_iff.2 (hr rfl)
    refine ⟨by simp [hl]; omega, fun i n hi => ?_⟩
    cases i with
    | zero => exact ⟨r, rfl, Or.inl ⟨hp, rfl⟩⟩
    | succ i =>
      obtain ⟨v, hv, hc⟩ := core i n (by rw [List.getElem?_tail]; exact hi) (fun v hlt =>
        hcl (i + 1) n (by simp; omega) (posOf (i + 1) n (by omega) hi) v)
      refine ⟨v, by simpa using hv, ?_⟩
      rcases hc with ⟨c1, c2⟩ | c | ⟨c1, c2, d, c3, c4⟩
      · exact Or.inl ⟨by omega, by simpa using c2⟩
      · exact Or.inr (Or.inl c)
      · refine Or.inr (Or.inr ⟨fun hlt => ?_, c2, d, by rw [List.getElem?_tail] at c3; exact c3, c4⟩)
        have := c1 (by omega)
        simp; omega

theorem argDefaults_pos (s : Sig E) (hp : s.posonly = [])
    (hd : s.defaults.length ≤ s.positional.length) (hk : s.kwonly = [] ∨ s.defaults = []) (i : Nat) (d : E) (h : s.argDefaults[i]? = some (some d)) : s.posDefault i = some d := by
  rcases hk with hk | hk
  · simp only [Sig.argDefaults, Sig.args, hk, List.map_nil, List.append_nil] at h
    simp only [Sig.posDefault, Sig.positional, hp, List.nil_append]
    by_cases hi : i < s.pos.length - s.defaults.length
    · rw [List.getElem?_append_left (by simpa using hi), List.getElem?_replicate, if_pos hi] at h
      cases h
    · rw [List.getElem?_append_right (by simpa using hi), List.getElem?_map] at h
      simp only [List.length_replicate, Option.map_eq_some_iff, Option.some.injEq] at h
      obtain ⟨a, ha, rfl⟩ := h
      rw [if_pos (by omega)]
      rw [show i + s.defaults.length - s.pos.length = i - (s.pos.length - s.defaults.length) by
        simp only [Sig.positional, hp, List.nil_append] at hd; omega]
      exact ha
  · simp only [Sig.argDefaults, hk, List.map_nil, List.append_nil, List.getElem?_replicate] at h
    split at h <;> cases h

theorem withRecv_append (recv : Bool) (r : Val E) (a b : List (Val E)) :
    withRecv recv r (a ++ b) = withRecv recv r a ++ b := by cases recv <;> rfl

theorem withRecv_drop (s : Sig E) (recv : Bool) (r : Val E) (hr : recv = true → s.pos ≠ [])
    (U : List (Val E)) : U.drop (if recv then s.pos.length - 1 else s.pos.length) =
      (withRecv recv r U).drop s.pos.length := by
  cases recv with
  | false => rfl
  | true =>
    obtain ⟨n, hn⟩ : ∃ n, s.pos.length = n + 1 :=
      ⟨s.pos.length - 1, by have := List.length_pos_iff.2 (hr rfl); omega⟩
    simp [withRecv, hn]

theorem clash_pos (s : Sig E) (hpo : s.posonly = []) {ps : List (Val E)}
    {kvs : List (String × Val E)} {res : List (Val E)} (hb : Binds s ps kvs res) :
    ∀ i n, i < ps.length → s.pos[i]? = some n → ∀ v, (n, v) ∉ kvs := by
  intro i n hi hn
  exact hb.clash i n hi (by simpa [Sig.positional, hpo] using hn) (List.mem_of_getElem? hn)

/-- Keywords of an accepted call do not name the receiver. -/
theorem hits_recv (s : Sig E) (hpo : s.posonly = []) (recv : Bool) (r : Val E)
    (hr : recv = true → s.pos ≠ []) {U : List (Val E)}
    {kvs : List (String × Val E)} {res : List (Val E)} (hb : Binds s (withRecv recv r U) kvs res)
    (n : String) (v : Val E) (hv : (n, v) ∈ kvs) :
    n ∈ (if recv then s.args.tail else s.args) ↔ n ∈ s.args := by
  cases recv with
  | false => rfl
  | true =>
    simp only [if_true]
    obtain ⟨p, rest, hp⟩ : ∃ p rest, s.pos = p :: rest := by
      cases hq : s.pos with
      | nil => exact absurd hq (hr rfl)
      | cons p rest => exact ⟨p, rest, rfl⟩
    have hne : n ≠ p := by
      rintro rfl
      exact clash_pos s hpo hb 0 n (by simp [withRecv]) (by simp [hp]) v hv
    simp [Sig.args, hp, hne]

theorem nodup_val {kvs : List (String × Val E)} (h : (kvs.map (·.1)).Nodup) {n : String}
    {v w : Val E} (hv : (n, v) ∈ kvs) (hw : (n, w) ∈ kvs) : v = w := by
  have := List.inj_on_of_nodup_map h hv hw rfl
  exact (Prod.mk.inj this).2

/-- Everything known about an accepted and translated call. -/
theorem bound (s : Sig E) (hwf : s.Wf) (hpo : s.posonly = []) (recv : Bool) (r : Val E)
    (hr : recv = true → s.pos ≠ []) (ps : List (Pos E)) (ks : List (Kw E))
    (hk : ∀ k ∈ ks, k.IsNamed) (order : List E) (out res : List (Val E))
    (h : translateArgs s recv ps ks = .ok (order, out))
    (hb : Binds s (withRecv recv r (ps.flatMap Pos.values)) (ks.flatMap Kw.values) res) :
    ∃ vs ws tl, withRecv recv r out = vs ++ tl ∧ res = ws ++ tl ∧ vs.length = s.args.length ∧
      ws.length = s.args.length ∧
      ∀ i n, s.args[i]? = some n →
        (¬ Omitted s (withRecv recv r (ps.flatMap Pos.values)) (ks.flatMap Kw.values) i n →
          vs[i]? = ws[i]?) ∧
        (Omitted s (withRecv recv r (ps.flatMap Pos.values)) (ks.flatMap Kw.values) i n →
          ∃ d e, s.argDefaults[i]? = some (some d) ∧ vs[i]? = some (.expr d) ∧
            s.pyDefault i = some e ∧ ws[i]? = some (.expr e)) := by
  have hn : s.args.Nodup := by
    have := hwf.nodup; simpa [Sig.positional, hpo, Sig.args] using this
  have hP : s.positional = s.pos := by simp [Sig.positional, hpo]
  have hlen : s.args.length = s.pos.length + s.kwonly.length := by simp [Sig.args]
  obtain ⟨vs, hvs, hout, -⟩ := translateArgs_ok s recv ps ks order out hk h
  obtain ⟨hl, hg⟩ := translateArgs_get s recv r hr ps ks hk hn hb.nodup (clash_pos s hpo hb) vs hvs
  have hresget : ∀ i, i < s.args.length → ∃ v, res[i]? = some v := by
    intro i hi
    by_cases hp : i < s.pos.length
    · obtain ⟨v, hv, -⟩ := hb.positional i (s.pos[i]) (by rw [hP]; exact List.getElem?_eq_getElem hp)
      exact ⟨v, hv⟩
    · obtain ⟨v, hv, -⟩ := hb.kwonly (i - s.pos.length) (s.kwonly[i - s.pos.length]'(by omega)).1 _
        (List.getElem?_eq_getElem (by omega))
      rw [hP, show s.pos.length + (i - s.pos.length) = i by omega] at hv
      exact ⟨v, hv⟩
  have hreslen : s.args.length ≤ res.length := by
    by_contra hc
    obtain ⟨v, hv⟩ := hresget res.length (by omega)
    simp at hv
  refine ⟨withRecv recv r vs, res.take s.args.length, res.drop s.args.length, ?_,
    (List.take_append_drop _ _).symm, hl, by simp; omega, ?_⟩
  · rw [hout, withRecv_append]
    congr 1
    have hrest := hb.rest
    rw [hP] at hrest
    rw [hlen, hrest, withRecv_drop s recv r hr]
    congr 1
    split
    · congr 2
      apply List.filter_congr
      intro kv hkv
      have := hits_recv s hpo recv r hr hb kv.1 kv.2 hkv
      exact decide_eq_decide.2 (not_congr this)
    · rfl
  · intro i n hi
    have hil : i < s.args.length := by rw [List.getElem?_eq_some_iff] at hi; exact hi.1
    rw [List.getElem?_take_of_lt hil]
    obtain ⟨v, hv, hc⟩ := hg i n hi
    -- Python's value
    have hpy : ∃ w, res[i]? = some w ∧
        ((i < s.pos.length ∧ (withRecv recv r (ps.flatMap Pos.values))[i]? = some w) ∨
          (i < s.pos.length → (withRecv recv r (ps.flatMap Pos.values)).length ≤ i) ∧
            (n, w) ∈ ks.flatMap Kw.values ∨
          (i < s.pos.length → (withRecv recv r (ps.flatMap Pos.values)).length ≤ i) ∧
            (∀ x, (n, x) ∉ ks.flatMap Kw.values) ∧ ∃ e, s.pyDefault i = some e ∧ w = .expr e) := by
      by_cases hp : i < s.pos.length
      · have hin : s.pos[i]? = some n := by
          rwa [Sig.args, List.getElem?_append_left hp] at hi
        obtain ⟨w, hw, hc⟩ := hb.positional i n (by rw [hP]; exact hin)
        refine ⟨w, hw, ?_⟩
        rcases hc with c | ⟨c1, -, c2⟩ | ⟨c1, c2, e, c3, c4⟩
        · exact Or.inl ⟨hp, c⟩
        · exact Or.inr (Or.inl ⟨fun _ => c1, c2⟩)
        · refine Or.inr (Or.inr ⟨fun _ => c1, c2 (List.mem_of_getElem? hin), e, ?_, c4⟩)
          rw [Sig.pyDefault, if_pos (by rw [hP]; exact hp)]; exact c3
      · have hin : (s.kwonly.map (·.1))[i - s.pos.length]? = some n := by
          rwa [Sig.args, List.getElem?_append_right (by omega)] at hi
        rw [List.getElem?_map, Option.map_eq_some_iff] at hin
        obtain ⟨⟨n', d⟩, hj, hn'⟩ := hin
        obtain rfl : n' = n := hn'
        obtain ⟨w, hw, hc⟩ := hb.kwonly _ n' d hj
        rw [hP, show s.pos.length + (i - s.pos.length) = i by omega] at hw
        refine ⟨w, hw, ?_⟩
        rcases hc with c | ⟨c1, e, c2, c3⟩
        · exact Or.inr (Or.inl ⟨fun h => absurd h hp, c⟩)
        · refine Or.inr (Or.inr ⟨fun h => absurd h hp, c1, e, ?_, c3⟩)
          rw [Sig.pyDefault, if_neg (by rw [hP]; exact hp), hP, hj, c2]; rfl
    obtain ⟨w, hw, hd⟩ := hpy
    rw [hv, hw]
    have clash' : i < s.pos.length → i < (withRecv recv r (ps.flatMap Pos.values)).length →
        ∀ x, (n, x) ∉ ks.flatMap Kw.values := fun h1 h2 =>
      clash_pos s hpo hb i n h2 (by rwa [Sig.args, List.getElem?_append_left h1] at hi)
    have ltOf : ∀ x, (withRecv recv r (ps.flatMap Pos.values))[i]? = some x →
        i < (withRecv recv r (ps.flatMap Pos.values)).length := fun x hx => by
      rw [List.getElem?_eq_some_iff] at hx; exact hx.1
    constructor
    · intro hno
      rcases hc with ⟨c1, c2⟩ | c | ⟨c1, c2, c3⟩
      · rcases hd with ⟨d1, d2⟩ | ⟨d1, d2⟩ | ⟨d1, -⟩
        · rw [← c2, ← d2]
        · have := d1 c1; have := ltOf _ c2; omega
        · have := d1 c1; have := ltOf _ c2; omega
      · rcases hd with ⟨d1, d2⟩ | ⟨d1, d2⟩ | ⟨-, d2, -⟩
        · exact absurd c (clash' d1 (ltOf _ d2) v)
        · rw [nodup_val hb.nodup c d2]
        · exact absurd c (d2 v)
      · exact absurd ⟨hi, c1, c2⟩ hno
    · rintro ⟨-, o1, o2⟩
      rcases hc with ⟨c1, c2⟩ | c | ⟨c1, c2, d, c3, rfl⟩
      · have := o1 c1; have := ltOf _ c2; omega
      · exact absurd c (o2 v)
      · rcases hd with ⟨d1, d2⟩ | ⟨d1, d2⟩ | ⟨-, -, e, d2, rfl⟩
        · have := o1 d1; have := ltOf _ d2; omega
        · exact absurd d2 (o2 w)
        · exact ⟨d, e, c3, rfl, d2, rfl⟩

theorem bind_iff (s : Sig E) (hwf : s.Wf) (hpo : s.posonly = []) (recv : Bool) (r : Val E)
    (hr : recv = true → s.pos ≠ []) (ps : List (Pos E)) (ks : List (Kw E))
    (hk : ∀ k ∈ ks, k.IsNamed) (order : List E) (out res : List (Val E))
    (h : translateArgs s recv ps ks = .ok (order, out))
    (hb : Binds s (withRecv recv r (ps.flatMap Pos.values)) (ks.flatMap Kw.values) res) :
    withRecv recv r out = res ↔
      ∀ i n, Omitted s (withRecv recv r (ps.flatMap Pos.values)) (ks.flatMap Kw.values) i n →
        s.argDefaults[i]? = some (s.pyDefault i) := by
  obtain ⟨vs, ws, tl, e1, e2, l1, l2, hg⟩ := bound s hwf hpo recv r hr ps ks hk order out res h hb
  rw [e1, e2, List.append_left_inj]
  constructor
  · rintro rfl i n ho
    obtain ⟨d, e, h1, h2, h3, h4⟩ := (hg i n ho.1).2 ho
    rw [h2] at h4
    cases h4
    rw [h1, h3]
  · intro hall
    apply List.ext_getElem?
    intro i
    by_cases hi : i < s.args.length
    · have hin := List.getElem?_eq_getElem hi
      by_cases ho : Omitted s (withRecv recv r (ps.flatMap Pos.values)) (ks.flatMap Kw.values) i s.args[i]
      · obtain ⟨d, e, h1, h2, h3, h4⟩ := (hg i _ hin).2 ho
        have := hall i _ ho
        rw [h1, h3] at this
        cases this
        rw [h2, h4]
      · exact (hg i _ hin).1 ho
    · rw [List.getElem?_eq_none (by omega), List.getElem?_eq_none (by omega)]

theorem bind_eq (s : Sig E) (hwf : s.Wf) (hpo : s.posonly = [])
    (hko : s.kwonly = [] ∨ s.defaults = []) (recv : Bool) (r : Val E)
    (hr : recv = true → s.pos ≠ []) (ps : List (Pos E)) (ks : List (Kw E))
    (hk : ∀ k ∈ ks, k.IsNamed) (order : List E) (out res : List (Val E))
    (h : translateArgs s recv ps ks = .ok (order, out))
    (hb : Binds s (withRecv recv r (ps.flatMap Pos.values)) (ks.flatMap Kw.values) res) :
    withRecv recv r out = res := by
  rw [bind_iff s hwf hpo recv r hr ps ks hk order out res h hb]
  intro i n ho
  obtain ⟨vs, ws, tl, e1, e2, l1, l2, hg⟩ := bound s hwf hpo recv r hr ps ks hk order out res h hb
  obtain ⟨d, e, h1, h2, h3, h4⟩ := (hg i n ho.1).2 ho
  have h5 := argDefaults_pos s hpo hwf.defaults hko i d h1
  rcases hko with hko | hko
  · have hil : i < s.positional.length := by
      have := ho.1
      rw [List.getElem?_eq_some_iff] at this
      obtain ⟨hi, -⟩ := this
      simpa [Sig.args, Sig.named, hko, Sig.positional, hpo] using hi
    rw [h1, Sig.pyDefault, if_pos hil, h5]
  · simp only [Sig.argDefaults, hko, List.map_nil, List.append_nil, List.getElem?_replicate] at h1
    split at h1 <;> cases h1

theorem translate_total (s : Sig E) (hwf : s.Wf) (hpo : s.posonly = []) (hko : s.kwonly = [])
    (recv : Bool) (r : Val E) (hr : recv = true → s.pos ≠ []) (ps : List (Pos E)) (ks : List (Kw E))
    (hk : ∀ k ∈ ks, k.IsNamed) (hs : ∀ e, Pos.star e none ∉ ps)
    (h9 : s.vararg = true →
      (withRecv recv r (ps.flatMap Pos.values)).length ≤ s.positional.length + 9)
    (res : List (Val E))
    (hb : Binds s (withRecv recv r (ps.flatMap Pos.values)) (ks.flatMap Kw.values) res) :
    ∃ order out, translateArgs s recv ps ks = .ok (order, out) := by
  have hP : s.positional = s.pos := by simp [Sig.positional, hpo]
  have hA : s.args = s.pos := by simp [Sig.args, hko]
  have hn : s.pos.Nodup := by
    have := hwf.nodup; simpa [hP, hko] using this
  rw [translateArgs, unpackPos_total ps hs]
  dsimp only
  rw [hA]
  generalize hU : ps.flatMap Pos.values = U at *
  have hlenA : ((U.take (if recv then s.pos.length - 1 else s.pos.length)).map some ++
      List.replicate ((if recv then s.pos.tail else s.pos).length - ((U.take
        (if recv then s.pos.length - 1 else s.pos.length)).map some).length)
        (none : Option (Val E))).length = (if recv then s.pos.tail else s.pos).length := by
    cases recv <;> simp <;> omega
  have hkn : (if recv then s.pos.tail else s.pos).Nodup := by split; exacts [hn.tail, hn]
  -- every parameter without argument has a stored default value
  obtain ⟨vs, hvs⟩ := fillDefaults_total (ks.foldl (kwStep (if recv then s.pos.tail else s.pos) s.kwarg)
      ⟨ps.map Pos.ex, (U.take (if recv then s.pos.length - 1 else s.pos.length)).map some ++
      List.replicate ((if recv then s.pos.tail else s.pos).length - ((U.take
        (if recv then s.pos.length - 1 else s.pos.length)).map some).length)
        (none : Option (Val E)), []⟩).args (if recv then s.argDefaults.tail else s.argDefaults) (by
    intro i hi
    have hil : i < (if recv then s.pos.tail else s.pos).length := by
      have h1 := kwFold_length (if recv then s.pos.tail else s.pos) s.kwarg ks
        ⟨ps.map Pos.ex, (U.take (if recv then s.pos.length - 1 else s.pos.length)).map some ++
          List.replicate ((if recv then s.pos.tail else s.pos).length - ((U.take
            (if recv then s.pos.length - 1 else s.pos.length)).map some).length)
            (none : Option (Val E)), []⟩
      rw [List.getElem?_eq_some_iff] at hi
      obtain ⟨h2, -⟩ := hi
      rw [h1, hlenA] at h2
      exact h2
    obtain ⟨g1, g2⟩ := kwFold_get (if recv then s.pos.tail else s.pos) s.kwarg hkn ks hk hb.nodup
      ⟨ps.map Pos.ex, _, []⟩ hlenA i _ (List.getElem?_eq_getElem hil)
    have hno : ∀ v, ((if recv then s.pos.tail else s.pos)[i], v) ∉ ks.flatMap Kw.values := by
      intro v hv
      have := g1 v hv
      rw [this] at hi
      cases hi
    have g := g2 hno
    rw [g] at hi
    -- not given by position
    have hge : (U.take (if recv then s.pos.length - 1 else s.pos.length)).length ≤ i := by
      by_contra hlt
      rw [List.getElem?_append_left (by simpa using hlt), List.getElem?_map] at hi
      simp at hi
    -- Python has a default value
    have key : ∀ j, j < s.pos.length → s.pos[j]? = some (if recv then s.pos.tail else s.pos)[i] →
        (withRecv recv r U).length ≤ j → ∃ d, s.argDefaults[j]? = some (some d) := by
      intro j hj hjn hlj
      obtain ⟨v, -, hc⟩ := hb.positional j _ (by rw [hP]; exact hjn)
      rcases hc with c | ⟨-, -, c⟩ | ⟨-, -, d, c, -⟩
      · rw [List.getElem?_eq_some_iff] at c; obtain ⟨c, -⟩ := c; omega
      · exact absurd c (hno v)
      · refine ⟨d, ?_⟩
        simp only [Sig.posDefault, hP] at c
        have hd := hwf.defaults
        rw [hP] at hd
        split at c
        · rename_i hle
          rw [Sig.argDefaults, hA, List.getElem?_append_right (by simp; omega), List.getElem?_map,
            List.length_replicate]
          rw [show j - (s.pos.length - s.defaults.length) = j + s.defaults.length - s.pos.length by omega, c]
          rfl
        · cases c
    cases recv with
    | false =>
      simp only [Bool.false_eq_true, if_false] at *
      have hil' : i < s.pos.length := hil
      refine key i hil' (List.getElem?_eq_getElem hil') ?_
      simp only [withRecv, Bool.false_eq_true, if_false]
      simp at hge
      omega
    | true =>
      simp only [if_true] at *
      have hil' : i < s.pos.tail.length := hil
      obtain ⟨d, hd⟩ := key (i + 1) (by simp at hil'; omega) (by
          rw [← List.getElem?_tail]; exact List.getElem?_eq_getElem hil') (by
        simp only [withRecv, if_true, List.length_cons]
        simp at hge hil'
        omega)
      exact ⟨d, by rw [List.getElem?_tail]; exact hd⟩)
  rw [hvs]
  dsimp only
  have h9' : ¬ ((s.vararg && decide (9 < (U.drop
      (if recv then s.pos.length - 1 else s.pos.length)).length)) = true) := by
    intro hc
    simp only [Bool.and_eq_true, decide_eq_true_eq] at hc
    have h1 := h9 hc.1
    rw [hP] at h1
    have h2 := hc.2
    rw [withRecv_drop s recv r hr, List.length_drop] at h2
    omega
  rw [if_neg h9']
  split
  · rename_i hkw
    simp only [hkw]
    rw [kwFold_extra, List.nil_append, wrapKw_named _ _ hk]
    exact ⟨_, _, rfl⟩
  · exact ⟨_, _, rfl⟩

theorem kwonly_wrong (s : Sig E) (hwf : s.Wf) (hpo : s.posonly = []) (recv : Bool)
    (r : Val E) (hr : recv = true → s.pos ≠ []) (ps : List (Pos E)) (ks : List (Kw E))
    (hk : ∀ k ∈ ks, k.IsNamed) (d : E) (ds : List E) (n : String) (e : Option E)
    (kw : List (String × Option E)) (hd : s.defaults = ds ++ [d]) (hkw : s.kwonly = kw ++ [(n, e)])
    (order : List E) (out res : List (Val E))
    (h : translateArgs s recv ps ks = .ok (order, out))
    (hb : Binds s (withRecv recv r (ps.flatMap Pos.values)) (ks.flatMap Kw.values) res)
    (ho : ∀ w, (n, w) ∉ ks.flatMap Kw.values) :
    (withRecv recv r out)[s.pos.length + kw.length]? = some (.expr d) ∧
      ∃ x, e = some x ∧ res[s.pos.length + kw.length]? = some (.expr x) := by
  have hP : s.positional = s.pos := by simp [Sig.positional, hpo]
  have hlen : s.args.length = s.pos.length + kw.length + 1 := by simp [Sig.args, hkw]; omega
  obtain ⟨vs, ws, tl, e1, e2, l1, l2, hg⟩ := bound s hwf hpo recv r hr ps ks hk order out res h hb
  have hi : s.args[s.pos.length + kw.length]? = some n := by
    rw [Sig.args, List.getElem?_append_right (by omega), hkw]
    simp
  obtain ⟨d', e', h1, h2, h3, h4⟩ := (hg _ n hi).2 ⟨hi, fun h => by omega, ho⟩
  rw [e1, e2, List.getElem?_append_left (by omega), List.getElem?_append_left (by omega), h2, h4]
  have hle := hwf.defaults
  rw [hP, hd] at hle
  simp only [List.length_append, List.length_cons, List.length_nil] at hle
  rw [Sig.argDefaults, hlen, hd, List.getElem?_append_right (by simp), List.getElem?_map] at h1
  simp only [List.length_replicate, List.length_append, List.length_cons, List.length_nil] at h1
  rw [show s.pos.length + kw.length - (s.pos.length + kw.length + 1 - (ds.length + (0 + 1))) =
    ds.length by omega] at h1
  rw [List.getElem?_append_right (by omega)] at h1
  simp only [Nat.sub_self, List.getElem?_cons_zero, Option.map_some, Option.some.injEq] at h1
  subst h1
  refine ⟨rfl, e', ?_, rfl⟩
  rw [Sig.pyDefault, if_neg (by rw [hP]; omega), hP, hkw, Nat.add_sub_cancel_left] at h3
  rw [List.getElem?_append_right (by omega)] at h3
  simpa using h3

theorem partition_sorted {α : Type} (p : α → Bool) : ∀ l : List α,
    l.Pairwise (fun a b => p a = false → p b = false) →
      l.filter p ++ l.filter (fun a => !p a) = l
  | [], _ => rfl
  | a :: l, h => by
    rw [List.pairwise_cons] at h
    have ih := partition_sorted p l h.2
    cases hp : p a with
    | true => simp [hp, ih]
    | false =>
      have hall : ∀ b ∈ l, p b = false := fun b hb => h.1 b hb hp
      have e1 : l.filter p = [] := List.filter_eq_nil_iff.2 (fun b hb => by simp [hall b hb])
      have e2 : l.filter (fun a => !p a) = l := List.filter_eq_self.2 (fun b hb => by simp [hall b hb])
      simp [hp, e1, e2]

theorem order_perm (s : Sig E) (hwf : s.Wf) (hpo : s.posonly = []) (recv : Bool) (r : Val E)
    (hr : recv = true → s.pos ≠ []) (ps : List (Pos E)) (ks : List (Kw E))
    (hk : ∀ k ∈ ks, k.IsNamed) (order : List E) (out res : List (Val E))
    (h : translateArgs s recv ps ks = .ok (order, out))
    (hb : Binds s (withRecv recv r (ps.flatMap Pos.values)) (ks.flatMap Kw.values) res) :
    order.Perm (pyOrder ps ks) ∧
      (ks.Pairwise (fun a b => a.surplus s → b.surplus s) → order = pyOrder ps ks) := by
  obtain ⟨vs, -, -, ho⟩ := translateArgs_ok s recv ps ks order out hk h
  have hhit : ∀ k ∈ ks, k.hits (if recv then s.args.tail else s.args) = k.hits s.args := by
    intro k hkm
    cases k with
    | unpack e l => rfl
    | named n e =>
      have := hits_recv s hpo recv r hr hb n (.expr e) (List.mem_flatMap.2 ⟨_, hkm, by simp [Kw.values]⟩)
      simp only [Kw.hits, this]
  have e1 : ks.filter (Kw.hits (if recv then s.args.tail else s.args)) = ks.filter (Kw.hits s.args) :=
    List.filter_congr hhit
  have e2 : (if s.kwarg then (ks.filter
      (fun k => !k.hits (if recv then s.args.tail else s.args))).map Kw.ex else []) =
      (ks.filter (fun k => !k.hits s.args)).map Kw.ex := by
    have e3 : ks.filter (fun k => !k.hits (if recv then s.args.tail else s.args)) =
        ks.filter (fun k => !k.hits s.args) := List.filter_congr (fun k hkm => by rw [hhit k hkm])
    rw [e3]
    split
    · rfl
    · rename_i hkw
      symm
      rw [List.map_eq_nil_iff, List.filter_eq_nil_iff]
      intro k hkm
      cases k with
      | unpack e l => exact absurd (hk _ hkm) (by simp [Kw.IsNamed])
      | named n e =>
        rcases hb.known n (.expr e) (List.mem_flatMap.2 ⟨_, hkm, by simp [Kw.values]⟩) with hc | hc
        · have : n ∈ s.args := hc
          simp [Kw.hits, this]
        · exact absurd hc hkw
  rw [e1, e2, List.append_assoc, ← List.map_append] at ho
  subst ho
  constructor
  · exact List.Perm.append_left _ ((List.filter_append_perm (Kw.hits s.args) ks).map _)
  · intro hpw
    rw [pyOrder, partition_sorted (Kw.hits s.args) ks]
    refine hpw.imp_of_mem ?_
    intro a b ha hb' hab hpa
    have : ∀ k ∈ ks, (k.hits s.args = false ↔ k.surplus s) := by
      intro k hkm
      cases k with
      | unpack e l => simp [Kw.hits, Kw.surplus]
      | named n e => exact decide_eq_false_iff_not
    exact (this b hb').2 (hab ((this a ha).1 hpa))

theorem threadArgCheck_fold (checks : List Bool) (a : Bool) :
    checks.foldl (fun acc c => acc == c) a = true ↔
      (checks.count false + (if a then 0 else 1)) % 2 = 0 := by
  induction checks generalizing a with
  | nil => cases a <;> simp
  | cons c cs ih =>
    rw [List.foldl_cons, ih, List.count_cons]
    cases a <;> cases c <;> simp
    all_goals omega

theorem threadArgCheck_parity (checks : List Bool) :
    threadArgCheck checks = true ↔ checks.count false % 2 = 0 := by
  rw [threadArgCheck, threadArgCheck_fold]; simp

end Nagini.Args
