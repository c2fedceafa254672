import Verif.Lemmas.Unions

/-!
C107: calls on receivers of union type follow the contract of the method of the smallest matching option.
C108: the arguments of such calls.
-/
set_option linter.unusedVariables false
set_option linter.unusedSimpArgs false
namespace Nagini.Unions

/-- A call on a receiver of a union type: subclassing, the options in the order in which they are tested, the class of the
receiver, and the option that decides. -/
structure Site (sub : Nat → Nat → Prop) (os : List Opt) (d : Nat) (o : Opt) (g : Nat → Bool) : Prop where
  order : os.Pairwise fun a b => sub b.1 a.1 → b.1 = a.1
  nodup : (os.map (·.1)).Nodup
  funs : ∀ x ∈ os, x.2.pure = true → x.2.returns = true
  guard : ∀ c, g c = true ↔ sub d c
  least : Least sub os d o

/-- What the generated code does is what evaluating the arguments and then calling the method of the option does. -/
def Agrees {H V : Type} (W : World H V) (args : List Nat) (os : List Opt) (o : Opt) (g : Nat → Bool) : Prop :=
  ∀ h v h', (∃ w, Runs W g (callInUnion args os) h w h' ∧ (o.2.returns = true → w = v)) ↔
    ∃ w, Calls W args o.2 h w h' ∧ (o.2.returns = true → w = v)

/-- **C107** (full claim). -/
def C107 : Prop :=
  ∀ (H V : Type) (W : World H V) (args : List Nat) sub os d o g, Site sub os d o g → Agrees W args os o g

/-- C107 if at most one option has a static method (the last one, if that method is impure), or all methods are pure and the
arguments need no statements. -/
theorem C107_partial (H V : Type) (W : World H V) (args : List Nat) (sub : Nat → Nat → Prop) (os : List Opt) (d : Nat)
    (o : Opt) (g : Nat → Bool) (hs : Site sub os d o g)
    (hok : OneStatic os ∨ (args = [] ∧ ∀ x ∈ os, x.2.pure = true)) : Agrees W args os o g := by
  intro h v h'
  obtain ⟨l, r, hos, hl⟩ := least_first sub os hs.order hs.nodup d o hs.least
  have hg : g o.1 = true := (hs.guard _).2 hs.least.2.1
  have hgl : ∀ x ∈ l, g x.1 = false := by
    intro x hx
    cases hgx : g x.1 with
    | false => rfl
    | true => exact absurd ((hs.guard _).1 hgx) (hl x hx)
  cases hp : (loop (args.map Stmt.arg) 0 os).2.2 with
  | true =>
    obtain ⟨h1, h2⟩ := (loop_pure _ 0 os).1 hp
    have hargs : args = [] := by
      rcases h1 with h1 | h1
      · rw [h1] at hos; simp at hos
      · simpa using h1
    subst hargs
    have hop : o.2.pure = true := h2 o hs.least.1
    have hcode : callInUnion [] os = .expr (os.map fun o => (o.1, Ex.app o.2)) := by
      simp only [callInUnion, hp, if_true, loop_values _ 0 os h2]
    have hpick : chainExp g (os.map fun o => (o.1, Ex.app o.2)) = some (.app o.2) := by
      rw [hos, List.map_append, List.map_cons]
      refine chainExp_pick g _ _ (o.1, Ex.app o.2) ?_ hg
      intro y hy
      obtain ⟨x, hx, rfl⟩ := List.mem_map.1 hy
      exact hgl x hx
    rw [hcode]
    constructor
    · rintro ⟨w, ⟨rfl, e, he, s, rfl, rfl⟩, hv⟩
      rw [hpick] at he
      cases he
      exact ⟨_, ⟨s.h, .nil _, by simp [Contract, hop, value]⟩, hv⟩
    · rintro ⟨w, ⟨h1, ha, hc⟩, hv⟩
      have hh : h1 = h := by cases ha; rfl
      subst hh
      simp only [Contract, hop, if_true] at hc
      obtain ⟨rfl, rfl⟩ := hc
      exact ⟨_, ⟨rfl, _, hpick, ⟨h', fun _ => W.fn o.2.id h', W.fn o.2.id h'⟩, rfl, rfl⟩, hv⟩
  | false =>
    have hone : OneStatic os := by
      rcases hok with h | ⟨h1, h2⟩
      · exact h
      · have := (loop_pure (args.map Stmt.arg) 0 os).2 ⟨Or.inr (by simp [h1]), h2⟩
        rw [this] at hp; simp at hp
    have hcode : callInUnion args os = .stmts (expected (args.map Stmt.arg) 0 os) := by
      simp only [callInUnion, hp, Bool.false_eq_true, if_false, blocks_ok _ 0 os hone]
    have hpick : chainIf g (expected (args.map Stmt.arg) 0 os) = own (args.map Stmt.arg) (0 + l.length) o.2 := by
      rw [hos, expected_append]
      exact chainIf_pick g _ _ (o.1, own (args.map Stmt.arg) (0 + l.length) o.2) (expected_guard g _ 0 l hgl) hg
    rw [hcode]
    constructor
    · rintro ⟨w, ⟨s, t, rfl, he, rfl, rfl⟩, hv⟩
      rw [hpick] at he
      exact (exec_own W args _ o.2 (hs.funs o hs.least.1) s v t.h).1 ⟨t, he, rfl, hv⟩
    · rintro ⟨w, hc, hv⟩
      obtain ⟨t, he, ht, hv'⟩ := (exec_own W args (0 + l.length) o.2 (hs.funs o hs.least.1) ⟨h, fun _ => w, w⟩ v h').2 ⟨w, hc, hv⟩
      exact ⟨t.ret, ⟨_, t, rfl, by rw [hpick]; exact he, ht, rfl⟩, hv'⟩

/-- With single inheritance, there is a smallest option for every object that is an instance of some option. -/
theorem C107_decided (sub : Nat → Nat → Prop) (refl : ∀ a, sub a a) (trans : ∀ a b c, sub a b → sub b c → sub a c)
    (tree : ∀ a b c, sub a b → sub a c → sub b c ∨ sub c b) (os : List Opt) (d : Nat) (h : ∃ o ∈ os, sub d o.1) :
    ∃ o, Least sub os d o := by
  induction os with
  | nil => simp at h
  | cons x os ih =>
    by_cases hos : ∃ o ∈ os, sub d o.1
    · obtain ⟨o, h1, h2, h3⟩ := ih hos
      by_cases hx : sub d x.1
      · rcases tree d x.1 o.1 hx h2 with h4 | h4
        · refine ⟨x, by simp, hx, ?_⟩
          intro y hy hdy
          rcases List.mem_cons.1 hy with rfl | hy
          · exact refl _
          · exact trans _ _ _ h4 (h3 y hy hdy)
        · refine ⟨o, by simp [h1], h2, ?_⟩
          intro y hy hdy
          rcases List.mem_cons.1 hy with rfl | hy
          · exact h4
          · exact h3 y hy hdy
      · refine ⟨o, by simp [h1], h2, ?_⟩
        intro y hy hdy
        rcases List.mem_cons.1 hy with rfl | hy
        · exact absurd hdy hx
        · exact h3 y hy hdy
    · obtain ⟨o, ho, hd⟩ := h
      rcases List.mem_cons.1 ho with rfl | ho
      · refine ⟨o, by simp, hd, ?_⟩
        intro y hy hdy
        rcases List.mem_cons.1 hy with rfl | hy
        · exact refl _
        · exact absurd ⟨y, hy, hdy⟩ hos
      · exact absurd ⟨o, ho, hd⟩ hos

/-- Method calls that are generated for operators and assignments have no such exceptions. -/
theorem C107_operators (H V : Type) (W : World H V) (sub : Nat → Nat → Prop) (os : List Opt) (d : Nat)
    (o : Opt) (g : Nat → Bool) (hs : Site sub os d o g) (s t : St H V) :
    ExecL W (chainIf g (methodCall os)) s t ↔ ExecL W [Stmt.call o.2 0] s t := by
  obtain ⟨l, r, hos, hl⟩ := least_first sub os hs.order hs.nodup d o hs.least
  have hg : g o.1 = true := (hs.guard _).2 hs.least.2.1
  have : chainIf g (methodCall os) = [Stmt.call o.2 0] := by
    rw [hos, methodCall, List.map_append, List.map_cons]
    refine chainIf_pick g _ _ (o.1, [Stmt.call o.2 0]) ?_ hg
    intro y hy
    obtain ⟨x, hx, rfl⟩ := List.mem_map.1 hy
    cases hgx : g x.1 with
    | false => rfl
    | true => exact absurd ((hs.guard _).1 hgx) (hl x hx)
  rw [this]

/-- Heaps that record which methods have been called; the result of a method is its number. -/
abbrev traces : World (List Nat) Nat := ⟨fun k h h' => h' = h, fun m h v h' => v = m ∧ h' = h ++ [m], fun m h => m⟩

theorem eq_site (os : List Opt) (o : Opt) (ho : o ∈ os) (hnd : (os.map (·.1)).Nodup)
    (hf : ∀ x ∈ os, x.2.pure = true → x.2.returns = true) : Site (fun a b => a = b) os o.1 o (fun c => c == o.1) where
  order := List.pairwise_of_forall fun a b h => h
  nodup := hnd
  funs := hf
  guard := by intro c; rw [beq_iff_eq]; exact eq_comm
  least := ⟨ho, rfl, fun o' _ h => h⟩

/-- `class A` and `class B` with a static method `f` each. -/
abbrev statics : List Opt := [(0, ⟨0, true, false, true⟩), (1, ⟨1, true, false, true⟩)]

/-- The calls of both methods. -/
abbrev both : List Stmt :=
  [.call ⟨0, true, false, true⟩ 0, .call ⟨1, true, false, true⟩ 1, .ret (.res 0), .ret (.res 1)]

/-- **C107 fails** for `x.f()` with `x: Union[A, B]` and static methods: for an `A`, both methods are called, and the result
is that of `B.f`. -/
theorem C107_static_fails : Site (fun a b => a = b) statics 0 (0, ⟨0, true, false, true⟩) (fun c => c == 0) ∧
    callInUnion [] statics = .stmts [(0, both), (1, both)] ∧
    (∃ w h', Calls traces [] ⟨0, true, false, true⟩ [] w h' ∧ w = 0 ∧ h' = [0]) ∧
    ∀ w h', Runs traces (fun c => c == 0) (callInUnion [] statics) [] w h' → w = 1 ∧ h' = [0, 1] := by
  refine ⟨eq_site statics (0, ⟨0, true, false, true⟩) (by simp) (by decide) (by simp), rfl,
    ⟨0, [0], ⟨[], .nil _, by simp [Contract]⟩, rfl, rfl⟩, ?_⟩
  rintro w h' ⟨s, t, hs, he, rfl, rfl⟩
  have he' : ExecL traces both s t := he
  cases he' with
  | cons a1 a2 => cases a2 with
    | cons b1 b2 => cases b2 with
      | cons c1 c2 => cases c2 with
        | cons d1 d2 =>
          cases d2; cases d1; cases c1
          cases a1 with
          | call _ _ _ v1 x1 e1 => cases b1 with
            | call _ _ _ v2 x2 e2 =>
              obtain ⟨rfl, rfl⟩ := e1
              obtain ⟨rfl, rfl⟩ := e2
              refine ⟨rfl, ?_⟩
              show s.h ++ [0] ++ [1] = [0, 1]
              rw [hs]; rfl

theorem C107_fails : ¬ C107 := by
  intro h
  obtain ⟨h1, _, ⟨w, h', h2, rfl, rfl⟩, h3⟩ := C107_static_fails
  obtain ⟨w, hr, hw⟩ := (h _ _ traces [] _ _ _ _ _ h1 [] 0 [0]).2 ⟨0, h2, fun _ => rfl⟩
  have := (h3 w [0] hr).2
  simp at this

/-- Static pure functions, with an argument that is a method call. -/
abbrev pureStatics : List Opt := [(0, ⟨0, true, true, true⟩), (1, ⟨1, true, true, true⟩)]

/-- **C107 also fails** for static pure functions if the arguments need statements: for an `A`, the result is that of
`B.f`. -/
theorem C107_pure_static_fails : Site (fun a b => a = b) pureStatics 0 (0, ⟨0, true, true, true⟩) (fun c => c == 0) ∧
    (∃ h', Calls traces [0] ⟨0, true, true, true⟩ [] 0 h') ∧
    ∀ w h', Runs traces (fun c => c == 0) (callInUnion [0] pureStatics) [] w h' → w = 1 := by
  refine ⟨eq_site pureStatics (0, ⟨0, true, true, true⟩) (by simp) (by decide) (by simp),
    ⟨[], [], .cons rfl (.nil _), by simp [Contract]⟩, ?_⟩
  rintro w h' ⟨s, t, hs, he, rfl, rfl⟩
  have he' : ExecL traces [.arg 0, .ret (.app ⟨0, true, true, true⟩), .ret (.app ⟨1, true, true, true⟩)] s t := he
  cases he' with
  | cons a1 a2 => cases a2 with
    | cons b1 b2 => cases b2 with
      | cons c1 c2 =>
        cases c2; cases c1; cases b1; cases a1
        rfl

/-- A static method of one option is also called for the other options that follow. -/
theorem C107_mixed_fails :
    callInUnion [] [(0, ⟨0, true, false, false⟩), (1, ⟨1, false, false, false⟩)] =
      .stmts [(0, [.call ⟨0, true, false, false⟩ 0]),
        (1, [.call ⟨0, true, false, false⟩ 0, .call ⟨1, false, false, false⟩ 1])] := rfl

/-- Non-vacuity: `class A`, its subclass `B` (1), and `C`, with instance methods, one of them pure; a `B`. -/
example : ∃ (sub : Nat → Nat → Prop) (os : List Opt) (o : Opt) (g : Nat → Bool), Site sub os 1 o g ∧ OneStatic os ∧
    o.1 = 1 ∧ os.length = 3 ∧ (∃ x ∈ os, x.1 = 0 ∧ sub 1 0) ∧
    callInUnion [7] os = .stmts [(1, [.arg 7, .call ⟨11, false, false, true⟩ 0, .ret (.res 0)]),
      (0, [.arg 7, .ret (.app ⟨10, false, true, true⟩)]), (2, [.arg 7, .call ⟨12, true, false, true⟩ 2, .ret (.res 2)])] := by
  refine ⟨fun a b => a = b ∨ (a = 1 ∧ b = 0), [(1, ⟨11, false, false, true⟩), (0, ⟨10, false, true, true⟩),
    (2, ⟨12, true, false, true⟩)], (1, ⟨11, false, false, true⟩), fun c => c == 1 || c == 0, ?_, ?_, rfl, rfl, ?_, rfl⟩
  · refine ⟨?_, by decide, by simp, ?_, ?_⟩
    · simp
    · intro c; simp; omega
    · refine ⟨by simp, Or.inl rfl, ?_⟩
      simp
  · exact ⟨[(1, ⟨11, false, false, true⟩), (0, ⟨10, false, true, true⟩)], (2, ⟨12, true, false, true⟩), [], rfl, by simp, by simp⟩
  · exact ⟨(0, ⟨10, false, true, true⟩), by simp, rfl, Or.inr ⟨rfl, rfl⟩⟩

/-! C108 -/

open Args

variable {E : Type}

theorem unpackPos_values (ps : List (Pos E)) (order : List E) (vs : List (Val E)) (h : unpackPos ps = .ok (order, vs)) :
    vs = ps.flatMap Pos.values := by
  induction ps generalizing order vs with
  | nil => simp only [unpackPos, Except.ok.injEq, Prod.mk.injEq] at h; simp [← h.2]
  | cons p ps ih =>
    cases p with
    | plain e =>
      simp only [unpackPos] at h
      split at h
      · rename_i o v hv
        simp only [Except.ok.injEq, Prod.mk.injEq] at h
        rw [← h.2, ih _ _ hv]; rfl
      · simp at h
    | star e n =>
      cases n with
      | none => simp [unpackPos] at h
      | some n =>
        simp only [unpackPos] at h
        split at h
        · rename_i o v hv
          simp only [Except.ok.injEq, Prod.mk.injEq] at h
          rw [← h.2, ih _ _ hv]; rfl
        · simp at h

/-- The values that are given by position, with the receiver. -/
def given (static : Bool) (r : Val E) (ps : List (Pos E)) : List (Val E) := withRecv (!static) r (ps.flatMap Pos.values)

theorem unionBind_spec (s : Sig E) (static : Bool) (r : Val E) (ps : List (Pos E)) (ks : List (Kw E)) (out : List (Val E))
    (h : unionBind s static r ps ks = some out) :
    out = (given static r ps).take (s.args.length + (if s.vararg then 1 else 0) + (if s.kwarg then 1 else 0)) ∧
    out.length = s.args.length + (if s.vararg then 1 else 0) + (if s.kwarg then 1 else 0) := by
  cases hv : unpackPos ps with
  | error x => simp [unionBind, hv] at h
  | ok p =>
    obtain ⟨o, vs⟩ := p
    have hvs := unpackPos_values ps o vs hv
    have he : (if static = true then [] else [r]) ++ vs = given static r ps := by
      cases static <;> simp [given, withRecv, hvs]
    simp only [unionBind, hv, he] at h
    generalize s.args.length + (if s.vararg = true then 1 else 0) + (if s.kwarg = true then 1 else 0) = n at h ⊢
    split at h
    · rename_i hl
      simp only [Option.some.injEq] at h
      subst h
      exact ⟨rfl, hl⟩
    · simp at h

/-- **C108** (full claim): the parameters of a method that is called on a receiver of union type get the values that Python
gives them, if the generated call is well-formed. -/
def C108 : Prop :=
  ∀ (E : Type) (s : Sig E), s.Wf → s.posonly = [] → ∀ static r ps ks out res, unionBind s static r ps ks = some out →
    Binds s (given static r ps) (ks.flatMap Kw.values) res → out = res

theorem length_res {s : Sig E} {ps : List (Val E)} {kvs : List (String × Val E)} {res : List (Val E)} (hb : Binds s ps kvs res)
    (hv : s.vararg = false) (hk : s.kwarg = false) (hko : s.kwonly = []) : res.length ≤ s.positional.length := by
  have := congrArg List.length hb.rest
  simp [hv, hk, hko] at this
  omega

/-- C108 for methods without `*args`. -/
theorem C108_partial (s : Sig E) (hpo : s.posonly = []) (hv : s.vararg = false) (static : Bool) (r : Val E)
    (ps : List (Pos E)) (ks : List (Kw E)) (out res : List (Val E)) (h : unionBind s static r ps ks = some out)
    (hb : Binds s (given static r ps) (ks.flatMap Kw.values) res) : out = res := by
  obtain ⟨h1, h2⟩ := unionBind_spec s static r ps ks out h
  have hpos : s.positional = s.pos := by simp [Sig.positional, hpo]
  have hfit : (given static r ps).length ≤ s.pos.length := by
    rcases hb.fits with h | h
    · rwa [hpos] at h
    · rw [hv] at h; simp at h
  have hlen : out.length ≤ (given static r ps).length := by rw [h1, List.length_take]; omega
  simp only [hv, Sig.args, List.length_append, List.length_map, Bool.false_eq_true, if_false] at h2
  have hkw : s.kwarg = false := by
    cases hk : s.kwarg with
    | false => rfl
    | true => simp [hk] at h2; omega
  have hko : s.kwonly = [] := by
    cases hk : s.kwonly with
    | nil => rfl
    | cons a l => simp [hk] at h2; omega
  simp only [hkw, hko, List.length_nil, Bool.false_eq_true, if_false] at h2
  have hg : (given static r ps).length = s.pos.length := by omega
  have ho : out = given static r ps := by
    rw [h1, List.take_of_length_le]
    simp [hv, hkw, hko, Sig.args, hg]
  have hres := length_res hb hv hkw hko
  rw [hpos] at hres
  apply List.ext_getElem?
  intro i
  by_cases hi : i < s.pos.length
  · obtain ⟨v, hv1, hv2⟩ := hb.positional i s.pos[i] (by rw [hpos]; exact List.getElem?_eq_getElem hi)
    rw [hv1, ho]
    rcases hv2 with h | h | h
    · exact h
    · omega
    · omega
  · rw [List.getElem?_eq_none (by rw [ho]; omega), List.getElem?_eq_none (by omega)]

/-- For methods with `*args`, the binding is never that of Python, if the call is well-formed. -/
theorem C108_vararg_wrong (s : Sig E) (hpo : s.posonly = []) (hv : s.vararg = true) (static : Bool) (r : Val E)
    (hr : ∀ l, r ≠ .tuple l) (ps : List (Pos E)) (ks : List (Kw E)) (out res : List (Val E)) (h : unionBind s static r ps ks = some out)
    (hb : Binds s (given static r ps) (ks.flatMap Kw.values) res) : out ≠ res := by
  obtain ⟨h1, h2⟩ := unionBind_spec s static r ps ks out h
  intro he
  subst he
  have hpos : s.positional = s.pos := by simp [Sig.positional, hpo]
  have hrest := hb.rest
  rw [hpos, hv, if_pos rfl] at hrest
  have hget : out[s.pos.length + s.kwonly.length]? = some (.tuple ((given static r ps).drop s.pos.length)) := by
    have := congrArg (fun l => l[0]?) hrest
    simpa using this
  have hno : ∀ v ∈ given static r ps, ∀ l, v ≠ .tuple l := by
    intro v hv' l
    have hp : ∀ v ∈ ps.flatMap Pos.values, ∀ l, v ≠ .tuple l := by
      intro v hv' l
      obtain ⟨p, _, hp⟩ := List.mem_flatMap.1 hv'
      cases p with
      | plain e =>
        simp only [Pos.values, List.mem_singleton] at hp
        rw [hp]; simp
      | star e n =>
        simp only [Pos.values, List.mem_map] at hp
        obtain ⟨i, _, rfl⟩ := hp
        simp
    cases static with
    | true => exact hp v (by simpa [given, withRecv] using hv') l
    | false =>
      simp only [given, withRecv, Bool.not_false, if_true, List.mem_cons] at hv'
      rcases hv' with rfl | hv'
      · exact hr l
      · exact hp v hv' l
  have hm : Val.tuple ((given static r ps).drop s.pos.length) ∈ given static r ps := by
    have := List.mem_of_getElem? hget
    rw [h1] at this
    exact List.mem_of_mem_take this
  exact hno _ hm _ rfl

/-- Calls with keyword arguments or with default values are rejected, though Python accepts them. -/
theorem C108_rejected (s : Sig E) (hpo : s.posonly = []) (hv : s.vararg = false) (static : Bool) (r : Val E)
    (ps : List (Pos E)) (ks : List (Kw E)) (res : List (Val E))
    (hb : Binds s (given static r ps) (ks.flatMap Kw.values) res) (hk : ks.flatMap Kw.values ≠ [] ∨
      (given static r ps).length < s.pos.length ∨ s.kwonly ≠ [] ∨ s.kwarg = true) : unionBind s static r ps ks = none := by
  cases h : unionBind s static r ps ks with
  | none => rfl
  | some out =>
    exfalso
    obtain ⟨h1, h2⟩ := unionBind_spec s static r ps ks out h
    have hpos : s.positional = s.pos := by simp [Sig.positional, hpo]
    have hfit : (given static r ps).length ≤ s.pos.length := by
      rcases hb.fits with h | h
      · rwa [hpos] at h
      · rw [hv] at h; simp at h
    have hlen : out.length ≤ (given static r ps).length := by rw [h1, List.length_take]; omega
    simp only [hv, Sig.args, List.length_append, List.length_map, Bool.false_eq_true, if_false] at h2
    rcases hk with hk | hk | hk | hk
    · obtain ⟨⟨n, v⟩, hm⟩ := List.exists_mem_of_ne_nil _ hk
      have hkw : s.kwarg = false := by
        cases hk : s.kwarg with
        | false => rfl
        | true => simp [hk] at h2; omega
      have hko : s.kwonly = [] := by
        cases hk : s.kwonly with
        | nil => rfl
        | cons a l => simp [hk] at h2; omega
      have hn : n ∈ s.pos := by
        rcases hb.known n v hm with h | h
        · simpa [Sig.named, hko] using h
        · rw [hkw] at h; simp at h
      obtain ⟨i, hi, hin⟩ := List.mem_iff_getElem.1 hn
      refine hb.clash i n ?_ (by rw [hpos, List.getElem?_eq_getElem hi, hin]) hn v hm
      omega
    · omega
    · have : 0 < s.kwonly.length := List.length_pos_iff.2 hk
      omega
    · simp [hk] at h2; omega

/-- `def f(self, *args: object)`, called as `x.f(t)` for a tuple `t`. -/
theorem C108_vararg_fails : ∃ out res : List (Val Nat), unionBind (⟨[], ["self"], [], [], true, false⟩ : Sig Nat) false (.expr 0) [.plain 1] [] = some out ∧
    Binds (⟨[], ["self"], [], [], true, false⟩ : Sig Nat) (given false (.expr 0) [.plain 1]) [] res ∧
    out = [.expr 0, .expr 1] ∧ res = [.expr 0, .tuple [.expr 1]] := by
  refine ⟨_, _, rfl, ?_, rfl, rfl⟩
  exact
    { nodup := by simp
      fits := by simp
      clash := by simp
      known := by simp
      positional := by
        intro i n hi
        match i with
        | 0 => exact ⟨_, rfl, Or.inl rfl⟩
        | i + 1 => simp [Sig.positional] at hi
      kwonly := by simp
      rest := rfl }

theorem C108_fails : ¬ C108 := by
  intro h
  obtain ⟨out, res, h1, h2, h3, h4⟩ := C108_vararg_fails
  have := h Nat _ ⟨by decide, by decide⟩ rfl false (.expr 0) [.plain 1] [] out res h1 h2
  rw [h3, h4] at this
  simp at this

/-- Non-vacuity: `def f(self, a)`, called as `x.f(5)`. -/
example : unionBind (⟨[], ["self", "a"], [], [], false, false⟩ : Sig Nat) false (.expr 0) [.plain 5] [] =
      some [.expr 0, .expr 5] ∧
    Binds (⟨[], ["self", "a"], [], [], false, false⟩ : Sig Nat) (given false (.expr 0) [.plain 5]) [] [.expr 0, .expr 5] := by
  refine ⟨rfl, ?_⟩
  exact
    { nodup := by simp
      fits := by simp [given, withRecv, Pos.values, Sig.positional]
      clash := by simp
      known := by simp
      positional := by
        intro i n hi
        match i with
        | 0 => exact ⟨_, rfl, Or.inl rfl⟩
        | 1 => exact ⟨_, rfl, Or.inl rfl⟩
        | i + 2 => simp [Sig.positional] at hi
      kwonly := by simp
      rest := rfl }

/-- `def f(self, a=1)`, called as `x.f()`. -/
example : unionBind (⟨[], ["self", "a"], [1], [], false, false⟩ : Sig Nat) false (.expr 0) [] [] = none ∧
    Binds (⟨[], ["self", "a"], [1], [], false, false⟩ : Sig Nat) (given false (.expr 0) []) [] [.expr 0, .expr 1] := by
  refine ⟨rfl, ?_⟩
  exact
    { nodup := by simp
      fits := by simp [given, withRecv, Pos.values, Sig.positional]
      clash := by simp
      known := by simp
      positional := by
        intro i n hi
        match i with
        | 0 => exact ⟨_, rfl, Or.inl rfl⟩
        | 1 => exact ⟨.expr 1, rfl, Or.inr (Or.inr ⟨by simp [given, withRecv], by simp, 1, rfl, rfl⟩)⟩
        | i + 2 => simp [Sig.positional] at hi
      kwonly := by simp
      rest := rfl }

end Nagini.Unions
