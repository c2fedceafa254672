import Verif.Lemmas.Adt
import Mathlib.Logic.Basic
set_option linter.unusedVariables false
set_option linter.unusedSimpArgs false
/-! Every hierarchy without restricted fields has an interpretation, and the others have none. -/
namespace Nagini.Adt

section neg
variable {I : Interp} {As : List Cls} {le : Nat → Nat → Prop} {none : Nat}

theorem sorted_map {α : Type} (g : α → Srt) (h : α → I.U) : ∀ l : List α, (∀ a ∈ l, I.dom (g a) (h a)) →
    I.sorted (l.map g) (l.map h)
  | [], _ => trivial
  | a :: l, H => ⟨H a (by simp), sorted_map g h l fun b hb => H b (by simp [hb])⟩

theorem zip_map_self {α β : Type} (h : α → β) : ∀ l : List α, l.zip (l.map h) = l.map fun a => (a, h a)
  | [] => rfl
  | a :: l => by simp [zip_map_self h l]

theorem mem_all (A : Cls) : A ∈ A.all := by cases A; simp [Cls.all]
theorem cons_all {A c : Cls} (h : c ∈ A.cons) : c ∈ A.all := List.mem_of_mem_tail h

theorem id_mem {A c : Cls} (hA : A ∈ As) (hc : c ∈ A.all) : c.id ∈ (As.flatMap Cls.all).map Cls.id :=
  List.mem_map.2 ⟨c, List.mem_flatMap.2 ⟨A, hA, hc⟩, rfl⟩

mutual
theorem all_trans : ∀ x c : Cls, c ∈ x.all → ∀ d ∈ c.all, d ∈ x.all
  | .mk i n fs ss, c, hc, d, hd => by
    simp only [Cls.all, List.mem_cons] at hc
    rcases hc with rfl | hc
    · exact hd
    · simp only [Cls.all, List.mem_cons]
      exact .inr (alls_trans ss c hc d hd)

theorem alls_trans : ∀ (ss : List Cls) (c : Cls), c ∈ alls ss → ∀ d ∈ c.all, d ∈ alls ss
  | [], c, hc, d, hd => by simp [alls] at hc
  | s :: ss, c, hc, d, hd => by
    simp only [alls, List.mem_append] at hc ⊢
    rcases hc with hc | hc
    · exact .inl (all_trans s c hc d hd)
    · exact .inr (alls_trans ss c hc d hd)
end

theorem none_not_below (hh : Hier As le none) {A c : Cls} (hA : A ∈ As) (hc : c ∈ A.all) : ¬ le none c.id := by
  intro h
  have := (hh.below A hA c hc none).1 h
  obtain ⟨d, hd, e⟩ := List.mem_map.1 this
  exact hh.none_out (e ▸ id_mem hA (all_trans A c hc d hd))

theorem cons_fn {A c : Cls} (hc : c ∈ A.cons) :
    (Sym.cons A.id c.name, sorts A c, Srt.adt A.id, false) ∈ functions A := by
  simp only [functions, List.mem_append]
  exact .inl (.inl (.inl (List.mem_map.2 ⟨c, hc, by rw [params_map2]⟩)))

theorem models_unrestricted (hh : Hier As le none) (h : I.Models As le none) : ¬ Restricted As le := by
  rintro ⟨A, hA, c, hc, f, hf, i, n, e, ha, d, hd⟩
  obtain ⟨hstd, hall⟩ := h
  obtain ⟨ht, hs⟩ := hall A hA
  have hs := (sat_iff A (hh.cons A hA)).1 hs
  obtain ⟨v0, hv0⟩ := ht.inhabited
  have hsame := hh.same A hA c hc f hf
  have hsort : fieldSort A f.2 = .ref := by
    unfold fieldSort; rw [hsame, ha]; rw [e]; rfl
  have hin : ∀ g ∈ c.fields, ∃ v, I.dom (fieldSort A g.2) v := by
    intro g _
    unfold fieldSort
    split
    · exact ⟨v0, hv0⟩
    · cases g.2 with
      | int => exact ⟨I.int 0, (hstd.int_dom _).2 ⟨0, rfl⟩⟩
      | bool => exact ⟨I.bool true, (hstd.bool_dom _).2 ⟨true, rfl⟩⟩
      | cls => exact ⟨I.null, hstd.null_ref⟩
      | type => exact ⟨_, hstd.pytype_dom 0⟩
  have key : ∀ r, I.dom .ref r → I.pred .issubtype [I.fn .typeof [r], I.fn (.pytype i) []] := by
    intro r hr
    classical
    let g : (String × FTy) → I.U := fun x =>
      if x = f then r else if hx : ∃ v, I.dom (fieldSort A x.2) v then hx.choose else r
    have hvs : I.sorted (sorts A c) (c.fields.map g) := by
      refine sorted_map (fun x => fieldSort A x.2) g _ fun x hx => ?_
      simp only [g]
      by_cases e : x = f
      · rw [if_pos e, e, hsort]; exact hr
      · rw [if_neg e, dif_pos (hin x hx)]; exact (hin x hx).choose_spec
    have h1 := hs.dec c hc _ hvs (f, r) (by
      rw [zip_map_self]; exact List.mem_map.2 ⟨f, hf, by simp [g]⟩)
    have hdom : I.dom (.adt A.id) (I.fn (.cons A.id c.name) (c.fields.map g)) := by
      refine ht.result _ (sorts A c) _ false ?_ (by simp) _ hvs
      exact cons_fn hc
    have h2 := hs.types c hc f hf i n e ha _ hdom
    simp only at h1
    rwa [h1] at h2
  have hn := key I.null hstd.null_ref
  have hnn := (hstd.null_type _ hstd.null_ref).2 rfl
  have hi : i = none := by
    rcases hstd.excl _ _ _ (hstd.typeof_dom _ hstd.null_ref) hn hnn with h | h
    · exact (hh.none_min i).1 h
    · rcases hh.none_top i h with h | h
      · exact h
      · exact absurd (h d) hd
  subst hi
  have hb := ht.box v0 hv0
  rcases hstd.excl _ _ _ (hstd.typeof_dom _ hb) (key _ hb) (hs.boxTy v0 hv0) with h | h
  · exact none_not_below hh hA (mem_all A) h
  · exact hh.none_out ((hh.none_min _).1 h ▸ id_mem hA (mem_all A))
end neg

/-! ### The term model -/

inductive Val
  | int (n : Int)
  | bool (b : Bool)
  | null
  | ty (c : Nat)
  | obj (c n : Nat)
  | adt (k : Nat) (c : String) (args : List Val)
  | omega (k : Nat)
  | box (k : Nat) (v : Val)

def look (As : List Cls) (k : Nat) : Option Cls := As.find? fun A => A.id == k
def conOf (A : Cls) (c : String) : Option Cls := A.cons.find? fun d => d.name == c
def firstName (A : Cls) : String := match A.cons with
  | c :: _ => c.name
  | [] => ""

def defV (none : Nat) : Srt → Val
  | .int => .int 0
  | .bool => .bool true
  | .ref => .null
  | .ty => .ty none
  | .adt k => .omega k

def defArgs (none : Nat) (A c : Cls) : List Val := (sorts A c).map (defV none)

def dflt (As : List Cls) (none k : Nat) (c : String) : List Val := match look As k with
  | some A => match conOf A c with
    | some d => defArgs none A d
    | .none => []
  | .none => []

def nmOf (As : List Cls) (k : Nat) : String := match look As k with
  | some A => firstName A
  | .none => ""

open Classical in
noncomputable def mkV (As : List Cls) (none k : Nat) (c : String) (args : List Val) : Val :=
  if c = nmOf As k ∧ args = dflt As none k c then .omega k else .adt k c args

def conNm (As : List Cls) : Val → String
  | .adt _ c _ => c
  | .omega k => nmOf As k
  | _ => ""

def argsOf (As : List Cls) (none k : Nat) (c : String) : Val → List Val
  | .adt _ c' args => if c' = c then args else dflt As none k c
  | _ => dflt As none k c

def fieldNames (As : List Cls) (k : Nat) (c : String) : List String := match look As k with
  | some A => match conOf A c with
    | some d => d.fields.map (·.1)
    | .none => []
  | .none => []

def fieldV (As : List Cls) (none k : Nat) (c f : String) (v : Val) : Val :=
  (((fieldNames As k c).zip (argsOf As none k c v)).lookup f).getD .null

def idxV (As : List Cls) (k : Nat) (c : String) : Val := match look As k with
  | some A => .int ((A.cons.map Cls.name).idxOf c)
  | .none => .int 0

def classOf (As : List Cls) (none : Nat) : Val → Nat
  | .obj c _ => c
  | .box k v => match look As k with
    | some A => match conOf A (conNm As v) with
      | some d => d.id
      | .none => none
    | .none => none
  | _ => none

def unboxV (k : Nat) : Val → Val
  | .box k' v => if k' = k then v else .omega k
  | _ => .omega k

inductive Dom (As : List Cls) (none : Nat) : Srt → Val → Prop
  | int n : Dom As none .int (.int n)
  | bool b : Dom As none .bool (.bool b)
  | null : Dom As none .ref .null
  | ty c : Dom As none .ty (.ty c)
  | obj {c} n : c ∉ (As.flatMap Cls.all).map Cls.id → c ≠ none → Dom As none .ref (.obj c n)
  | box {A v} : A ∈ As → Dom As none (.adt A.id) v → Dom As none .ref (.box A.id v)
  | omega {A} : A ∈ As → Dom As none (.adt A.id) (.omega A.id)
  | adt {A c args} : A ∈ As → c ∈ A.cons → args.length = c.fields.length →
      (∀ p ∈ (sorts A c).zip args, Dom As none p.1 p.2) →
      ¬ (c.name = nmOf As A.id ∧ args = dflt As none A.id c.name) → Dom As none (.adt A.id) (.adt A.id c.name args)
  | dup {A c} : A ∈ As → c ∈ A.cons → c.fields = [] → Dom As none (.adt A.id) (.adt A.id c.name [.bool true])

noncomputable def fnV (As : List Cls) (none : Nat) : Sym → List Val → Val
  | .cons k c, vs => mkV As none k c vs
  | .decons k c f, [v] => fieldV As none k c f v
  | .consType k, [v] => idxV As k (conNm As v)
  | .const k c, [] => idxV As k c
  | .box k, [v] => .box k v
  | .unbox k, [v] => unboxV k v
  | .typeof, [v] => .ty (classOf As none v)
  | .pytype c, [] => .ty c
  | _, _ => .null

def predV (As : List Cls) (le : Nat → Nat → Prop) : Sym → List Val → Prop
  | .isCons _ c, [v] => conNm As v = c
  | .issubtype, [.ty c, .ty d] => le c d
  | _, _ => False

noncomputable def term (As : List Cls) (le : Nat → Nat → Prop) (none : Nat) : Interp where
  U := Val
  dom := Dom As none
  fn := fnV As none
  pred := predV As le
  int := .int
  bool := .bool
  null := .null

section pos
variable {As : List Cls} {le : Nat → Nat → Prop} {none : Nat}

theorem sameCls_of_id (hh : Hier As le none) {A B c d : Cls} (hA : A ∈ As) (hB : B ∈ As) (hc : c ∈ A.all)
    (hd : d ∈ B.all) (e : c.id = d.id) : A = B ∧ c = d := by
  have hn := hh.ids
  have hcd : c = d := List.inj_on_of_nodup_map hn (List.mem_flatMap.2 ⟨A, hA, hc⟩) (List.mem_flatMap.2 ⟨B, hB, hd⟩) e
  refine ⟨?_, hcd⟩
  subst hcd
  have hn := List.Nodup.of_map _ hn
  rw [List.nodup_flatMap] at hn
  by_contra hne
  have hsymm : Std.Symm (Function.onFun List.Disjoint Cls.all) := ⟨fun a b h x hx hy => h hy hx⟩
  exact hn.2.forall hA hB hne hc hd

theorem look_eq (hh : Hier As le none) {A : Cls} (hA : A ∈ As) : look As A.id = some A := by
  unfold look
  cases h : As.find? (fun B => B.id == A.id) with
  | none => have := List.find?_eq_none.1 h A hA; simp at this
  | some B =>
    have h1 := List.find?_some h
    have h2 := List.mem_of_find?_eq_some h
    simp only [beq_iff_eq] at h1
    rw [(sameCls_of_id hh h2 hA (mem_all B) (mem_all A) h1).1]

theorem name_inj (hh : Hier As le none) {A c d : Cls} (hA : A ∈ As) (hc : c ∈ A.cons) (hd : d ∈ A.cons)
    (e : c.name = d.name) : c = d := List.inj_on_of_nodup_map (hh.names A hA) hc hd e

theorem conOf_eq (hh : Hier As le none) {A c : Cls} (hA : A ∈ As) (hc : c ∈ A.cons) : conOf A c.name = some c := by
  unfold conOf
  cases h : A.cons.find? (fun d => d.name == c.name) with
  | none => have := List.find?_eq_none.1 h c hc; simp at this
  | some d =>
    have h1 := List.find?_some h
    simp only [beq_iff_eq] at h1
    rw [name_inj hh hA (List.mem_of_find?_eq_some h) hc h1]

theorem dflt_eq (hh : Hier As le none) {A c : Cls} (hA : A ∈ As) (hc : c ∈ A.cons) :
    dflt As none A.id c.name = defArgs none A c := by
  simp [dflt, look_eq hh hA, conOf_eq hh hA hc]

theorem first_mem (hh : Hier As le none) {A : Cls} (hA : A ∈ As) : ∃ c ∈ A.cons, nmOf As A.id = c.name := by
  have := hh.cons A hA
  simp only [nmOf, look_eq hh hA, firstName]
  cases h : A.cons with
  | nil => exact absurd h this
  | cons c cs => exact ⟨c, by simp, rfl⟩

theorem sorted_iff (ss : List Srt) : ∀ vs : List Val, (term As le none).sorted ss vs ↔
    vs.length = ss.length ∧ ∀ p ∈ ss.zip vs, Dom As none p.1 p.2 := by
  induction ss with
  | nil => intro vs; cases vs <;> simp [Interp.sorted]
  | cons s ss ih =>
    intro vs
    cases vs with
    | nil => simp [Interp.sorted]
    | cons v vs =>
      have := ih vs
      simp only [Interp.sorted, this, List.length_cons, Nat.add_right_cancel_iff, List.zip_cons_cons, List.mem_cons,
        forall_eq_or_imp]
      constructor
      · rintro ⟨a, b, c⟩; exact ⟨b, a, c⟩
      · rintro ⟨b, a, c⟩; exact ⟨a, b, c⟩

theorem defV_dom (hh : Hier As le none) {A : Cls} (hA : A ∈ As) (t : FTy) :
    Dom As none (fieldSort A t) (defV none (fieldSort A t)) := by
  unfold fieldSort
  split
  · exact .omega hA
  · cases t with
    | int => exact .int 0
    | bool => exact .bool true
    | cls => exact .null
    | type => exact .ty none

theorem defArgs_sorted (hh : Hier As le none) {A : Cls} (hA : A ∈ As) (c : Cls) :
    (term As le none).sorted (sorts A c) (defArgs none A c) := by
  unfold sorts defArgs sorts
  rw [List.map_map]
  exact sorted_map (I := term As le none) (fun f : String × FTy => fieldSort A f.2) _ _ fun f _ => defV_dom hh hA f.2

theorem dom_cases (hh : Hier As le none) {A : Cls} (hA : A ∈ As) {v : Val} (h : Dom As none (.adt A.id) v) :
    v = .omega A.id ∨ (∃ c ∈ A.cons, ∃ args, v = .adt A.id c.name args ∧ (term As le none).sorted (sorts A c) args ∧
      ¬ (c.name = nmOf As A.id ∧ args = dflt As none A.id c.name)) ∨
      ∃ c ∈ A.cons, c.fields = [] ∧ v = .adt A.id c.name [.bool true] := by
  generalize hs : Srt.adt A.id = s at h
  cases h with
  | int | bool | null | ty | obj | box => cases hs
  | omega hB => simp only [Srt.adt.injEq] at hs; rw [hs]; exact .inl rfl
  | @adt B c args hB hc hl hp hn =>
    simp only [Srt.adt.injEq] at hs
    have := (sameCls_of_id hh hA hB (mem_all _) (mem_all _) hs).1
    subst this
    exact .inr (.inl ⟨c, hc, args, rfl, (sorted_iff _ _).2 ⟨by rw [hl, sorts_length], hp⟩, hn⟩)
  | @dup B c hB hc hf =>
    simp only [Srt.adt.injEq] at hs
    have := (sameCls_of_id hh hA hB (mem_all _) (mem_all _) hs).1
    subst this
    exact .inr (.inr ⟨c, hc, hf, rfl⟩)

theorem conNm_mem (hh : Hier As le none) {A : Cls} (hA : A ∈ As) {v : Val} (h : Dom As none (.adt A.id) v) :
    ∃ c ∈ A.cons, conNm As v = c.name := by
  rcases dom_cases hh hA h with rfl | ⟨c, hc, args, rfl, _⟩ | ⟨c, hc, _, rfl⟩
  · obtain ⟨c, hc, e⟩ := first_mem hh hA; exact ⟨c, hc, e⟩
  · exact ⟨c, hc, rfl⟩
  · exact ⟨c, hc, rfl⟩

theorem conNm_mk {k c args} : conNm As (mkV As none k c args) = c := by
  unfold mkV
  split
  · next h => exact h.1.symm
  · rfl

theorem argsOf_mk {k c args} : argsOf As none k c (mkV As none k c args) = args := by
  unfold mkV
  split
  · next h => exact h.2.symm
  · simp [argsOf]

theorem mk_dom (hh : Hier As le none) {A c : Cls} (hA : A ∈ As) (hc : c ∈ A.cons) {args : List Val}
    (h : (term As le none).sorted (sorts A c) args) : Dom As none (.adt A.id) (mkV As none A.id c.name args) := by
  unfold mkV
  split
  · exact .omega hA
  · next hn =>
    have := (sorted_iff _ _).1 h
    exact .adt hA hc (by rw [this.1, sorts_length]) this.2 hn

theorem argsOf_sorted (hh : Hier As le none) {A c : Cls} (hA : A ∈ As) (hc : c ∈ A.cons) (hf : c.fields ≠ []) {v : Val}
    (h : Dom As none (.adt A.id) v) : (term As le none).sorted (sorts A c) (argsOf As none A.id c.name v) := by
  rcases dom_cases hh hA h with rfl | ⟨d, hd, args, rfl, hs, _⟩ | ⟨d, hd, hf', rfl⟩
  · simp only [argsOf, dflt_eq hh hA hc]; exact defArgs_sorted hh hA c
  · simp only [argsOf]
    split
    · next e => rw [← name_inj hh hA hd hc e]; exact hs
    · rw [dflt_eq hh hA hc]; exact defArgs_sorted hh hA c
  · simp only [argsOf]
    split
    · next e => rw [name_inj hh hA hd hc e] at hf'; exact absurd hf' hf
    · rw [dflt_eq hh hA hc]; exact defArgs_sorted hh hA c

theorem lookup_zip {α : Type} : ∀ (ns : List (String × FTy)) (vs : List α), (ns.map (·.1)).Nodup → ∀ p ∈ ns.zip vs,
    ((ns.map (·.1)).zip vs).lookup p.1.1 = some p.2
  | [], _, _, p, hp => by simp at hp
  | _ :: _, [], _, p, hp => by simp at hp
  | n :: ns, v :: vs, hn, p, hp => by
    simp only [List.map_cons, List.nodup_cons] at hn
    simp only [List.zip_cons_cons, List.mem_cons] at hp
    simp only [List.map_cons, List.zip_cons_cons, List.lookup_cons]
    rcases hp with rfl | hp
    · simp
    · have hne : p.1.1 ≠ n.1 := by
        intro e
        exact hn.1 (e ▸ List.mem_map.2 ⟨p.1, (List.of_mem_zip (a := p.1) (b := p.2) hp).1, rfl⟩)
      rw [show (p.1.1 == n.1) = false by simpa using hne]
      exact lookup_zip ns vs hn.2 p hp

theorem map_zip {α : Type} (g : (String × FTy) → α) : ∀ (ns : List (String × FTy)) (vs : List α),
    vs.length = ns.length → (∀ p ∈ ns.zip vs, g p.1 = p.2) → ns.map g = vs
  | [], [], _, _ => rfl
  | [], _ :: _, h, _ => by simp at h
  | _ :: _, [], h, _ => by simp at h
  | n :: ns, v :: vs, h, H => by
    simp only [List.zip_cons_cons, List.mem_cons, forall_eq_or_imp] at H
    simp only [List.map_cons, List.cons.injEq]
    exact ⟨H.1, map_zip g ns vs (by simpa using h) H.2⟩

theorem fieldNames_eq (hh : Hier As le none) {A c : Cls} (hA : A ∈ As) (hc : c ∈ A.cons) :
    fieldNames As A.id c.name = c.fields.map (·.1) := by
  simp [fieldNames, look_eq hh hA, conOf_eq hh hA hc]

theorem fieldV_eq (hh : Hier As le none) {A c : Cls} (hA : A ∈ As) (hc : c ∈ A.cons) {v : Val}
    {p : (String × FTy) × Val} (hp : p ∈ c.fields.zip (argsOf As none A.id c.name v)) :
    fieldV As none A.id c.name p.1.1 v = p.2 := by
  simp only [fieldV, fieldNames_eq hh hA hc]
  rw [lookup_zip _ _ (hh.fields A hA c hc) p hp]; rfl

theorem idx_iff (hh : Hier As le none) {A c d : Cls} (hA : A ∈ As) (hc : c ∈ A.cons) (hd : d ∈ A.cons) :
    idxV As A.id c.name = idxV As A.id d.name ↔ c.name = d.name := by
  simp only [idxV, look_eq hh hA, Val.int.injEq, Int.natCast_inj]
  exact List.idxOf_inj (List.mem_map.2 ⟨c, hc, rfl⟩)

theorem classOf_box (hh : Hier As le none) {A c : Cls} (hA : A ∈ As) (hc : c ∈ A.cons) {v : Val}
    (e : conNm As v = c.name) : classOf As none (.box A.id v) = c.id := by
  simp only [classOf, look_eq hh hA, e, conOf_eq hh hA hc]

theorem ref_cases (hh : Hier As le none) {A : Cls} (hA : A ∈ As) {r : Val} (h : Dom As none .ref r)
    (hle : le (classOf As none r) A.id) : ∃ v, r = .box A.id v ∧ Dom As none (.adt A.id) v := by
  cases h with
  | null => exact absurd hle (none_not_below hh hA (mem_all A))
  | obj n hc hn =>
    obtain ⟨d, hd, e⟩ := List.mem_map.1 ((hh.below A hA A (mem_all A) _).1 hle)
    have e : d.id = _ := e
    simp only [classOf] at e
    exact absurd (e ▸ id_mem hA hd) hc
  | @box B v hB hv =>
    obtain ⟨c, hc, e⟩ := conNm_mem hh hB hv
    rw [classOf_box hh hB hc e] at hle
    obtain ⟨d, hd, e'⟩ := List.mem_map.1 ((hh.below A hA A (mem_all A) _).1 hle)
    have := (sameCls_of_id hh hA hB hd (cons_all hc) e').1
    subst this
    exact ⟨v, rfl, hv⟩

theorem mkV_inj {k c vs ws} (h : mkV As none k c vs = mkV As none k c ws) : vs = ws := by
  rw [← argsOf_mk (As := As) (none := none) (k := k) (c := c) (args := vs), h, argsOf_mk]

theorem fieldV_mk (hh : Hier As le none) {A c : Cls} (hA : A ∈ As) (hc : c ∈ A.cons) {vs : List Val}
    {p : (String × FTy) × Val} (hp : p ∈ c.fields.zip vs) :
    fieldV As none A.id c.name p.1.1 (mkV As none A.id c.name vs) = p.2 :=
  fieldV_eq hh hA hc (by rw [argsOf_mk]; exact hp)

theorem cod_term (hh : Hier As le none) {A c : Cls} (hA : A ∈ As) (hc : c ∈ A.cons) (hf : c.fields ≠ []) {v : Val}
    (hv : Dom As none (.adt A.id) v) (hi : conNm As v = c.name) :
    v = mkV As none A.id c.name (c.fields.map fun f => fieldV As none A.id c.name f.1 v) := by
  have hs := argsOf_sorted hh hA hc hf hv
  have hl := ((sorted_iff _ _).1 hs).1
  rw [map_zip _ c.fields (argsOf As none A.id c.name v) (by rw [hl, sorts_length]) fun p hp => fieldV_eq hh hA hc hp]
  rcases dom_cases hh hA hv with rfl | ⟨d, hd, args, rfl, _, hn⟩ | ⟨d, hd, hf', rfl⟩
  · simp only [conNm] at hi
    simp [mkV, argsOf, hi]
  · simp only [conNm] at hi
    have := name_inj hh hA hd hc hi
    subst this
    rw [show argsOf As none A.id d.name (.adt A.id d.name args) = args by simp [argsOf]]
    unfold mkV; rw [if_neg hn]
  · simp only [conNm] at hi
    have := name_inj hh hA hd hc hi
    subst this
    exact absurd hf' hf

theorem unboxV_box (k : Nat) (v : Val) : unboxV k (.box k v) = v := by simp [unboxV]

theorem term_facts (hh : Hier As le none) (hr : ¬ Restricted As le) {A : Cls} (hA : A ∈ As) :
    Facts (term As le none) A where
  inj c hc vs ws _ _ h := mkV_inj h
  dec c hc vs hv p hp := fieldV_mk hh hA hc hp
  types c hc f hf i n e ha v hv := by
    show le _ i
    by_contra hn
    exact hr ⟨A, hA, c, hc, f, hf, i, n, e, ha, _, hn⟩
  cod c hc hf v hv hi := cod_term hh hA hc hf hv hi
  const c hc vs hv := congrArg (idxV As A.id) conNm_mk
  total v hv := by
    obtain ⟨c, hc, e⟩ := conNm_mem hh hA hv
    exact ⟨c, hc, show idxV As A.id (conNm As v) = idxV As A.id c.name by rw [e]⟩
  isc c hc v hv := by
    obtain ⟨d, hd, e⟩ := conNm_mem hh hA hv
    show idxV As A.id (conNm As v) = idxV As A.id c.name ↔ conNm As v = c.name
    rw [e]; exact idx_iff hh hA hd hc
  subs r hr' hs := by
    obtain ⟨v, rfl, hv⟩ := ref_cases hh hA hr' hs
    obtain ⟨c, hc, e⟩ := conNm_mem hh hA hv
    exact ⟨c, hc, congrArg Val.ty (classOf_box hh hA hc e)⟩
  boxTy v hv := by
    obtain ⟨c, hc, e⟩ := conNm_mem hh hA hv
    show le (classOf As none (.box A.id v)) A.id
    rw [classOf_box hh hA hc e]
    exact (hh.below A hA A (mem_all A) _).2 (List.mem_map.2 ⟨c, cons_all hc, rfl⟩)
  unboxBox v hv := unboxV_box A.id v
  boxIs v hv c hc := by
    obtain ⟨d, hd, e⟩ := conNm_mem hh hA hv
    show conNm As v = c.name ↔ Val.ty (classOf As none (.box A.id v)) = .ty c.id
    rw [classOf_box hh hA hd e, e, Val.ty.injEq]
    exact ⟨fun h => by rw [name_inj hh hA hd hc h],
      fun h => by rw [(sameCls_of_id hh hA hA (cons_all hd) (cons_all hc) h).2]⟩
  boxInj v hv c hc w hw := by
    exact ⟨fun h => h ▸ rfl, fun h => (Val.box.inj h).2⟩
  boxUnbox r hr' hs := by
    obtain ⟨v, rfl, hv⟩ := ref_cases hh hA hr' hs
    exact congrArg (Val.box A.id) (unboxV_box A.id v)

theorem fieldV_dom (hh : Hier As le none) {A c : Cls} (hA : A ∈ As) (hc : c ∈ A.cons) {f : String × FTy}
    (hf : f ∈ c.fields) {v : Val} (hv : Dom As none (.adt A.id) v) :
    Dom As none (fieldSort A f.2) (fieldV As none A.id c.name f.1 v) := by
  have hs := (sorted_iff _ _).1 (argsOf_sorted hh hA hc (List.ne_nil_of_mem hf) hv)
  have hl : (argsOf As none A.id c.name v).length = c.fields.length := by rw [hs.1, sorts_length]
  obtain ⟨i, hi, e⟩ := List.getElem_of_mem hf
  have hp : (f, (argsOf As none A.id c.name v)[i]'(by omega)) ∈ c.fields.zip (argsOf As none A.id c.name v) := by
    refine List.mem_iff_getElem.2 ⟨i, by simp [hl, hi], by simp [e]⟩
  rw [fieldV_eq hh hA hc hp]
  refine hs.2 (fieldSort A f.2, _) (List.mem_iff_getElem.2 ⟨i, by simp [hl, hi, sorts_length], ?_⟩)
  simp [sorts, e]

theorem term_typed (hh : Hier As le none) {A : Cls} (hA : A ∈ As) : Typed (term As le none) A where
  inhabited := ⟨_, .omega hA⟩
  result f ss s u hm hs vs hv := by
    simp only [functions, List.mem_append, List.mem_map, List.mem_flatMap, List.mem_cons] at hm
    rcases hm with (((⟨c, hc, e⟩ | ⟨c, hc, g, hg, e⟩) | e | ⟨c, hc, e⟩) | ⟨c, hc, e⟩)
    · cases e
      rw [params_map2] at hv
      exact mk_dom hh hA hc hv
    · cases e
      match vs, hv with
      | [v], hv => exact fieldV_dom hh hA hc hg hv.1
    · cases e
      match vs, hv with
      | [v], hv =>
        show Dom As none .int (idxV As A.id (conNm As v))
        simp only [idxV, look_eq hh hA]; exact .int _
    · cases e
      match vs, hv with
      | [], _ =>
        show Dom As none .int (idxV As A.id c.name)
        simp only [idxV, look_eq hh hA]; exact .int _
    · cases e; exact absurd rfl hs
  unique := by
    unfold functions
    have hc : (A.cons.map fun c => (Sym.const A.id c.name, ([] : List Srt), Srt.int, true)).Pairwise
        fun a b => a.2.2.2 = true → b.2.2.2 = true → (term As le none).fn a.1 [] ≠ (term As le none).fn b.1 [] := by
      rw [List.pairwise_map]
      have := hh.names A hA
      rw [List.Nodup, List.pairwise_map] at this
      exact this.imp_of_mem fun {a b} ha hb hne _ _ h => hne ((idx_iff hh hA ha hb).1 h)
    have hfalse : ∀ l : List (Sym × List Srt × Srt × Bool), (∀ a ∈ l, a.2.2.2 = false) → l.Pairwise
        fun a b => a.2.2.2 = true → b.2.2.2 = true → (term As le none).fn a.1 [] ≠ (term As le none).fn b.1 [] :=
      fun l h => List.pairwise_of_forall_mem_list fun a ha b hb h' => by rw [h a ha] at h'; cases h'
    rw [List.pairwise_append, List.pairwise_append]
    refine ⟨⟨hfalse _ ?_, ?_, ?_⟩, hfalse _ ?_, ?_⟩
    · intro a ha
      simp only [List.mem_append, List.mem_map, List.mem_flatMap] at ha
      rcases ha with ⟨c, _, rfl⟩ | ⟨c, _, g, _, rfl⟩ <;> rfl
    · rw [List.pairwise_cons]
      exact ⟨fun a _ h => (by cases h), hc⟩
    · intro a ha b _ h
      simp only [List.mem_append, List.mem_map, List.mem_flatMap] at ha
      rcases ha with ⟨c, _, rfl⟩ | ⟨c, _, g, _, rfl⟩ <;> cases h
    · intro a ha
      obtain ⟨c, _, rfl⟩ := List.mem_map.1 ha
      rfl
    · intro a _ b hb _ h
      obtain ⟨c, _, rfl⟩ := List.mem_map.1 hb
      cases h
  box v hv := .box hA hv
  unbox r hr := by
    show Dom As none (.adt A.id) (unboxV A.id r)
    cases hr with
    | null | obj => exact .omega hA
    | @box B v hB hv =>
      simp only [unboxV]
      split
      · next e => rw [← e]; exact hv
      · exact .omega hA

theorem term_standard (hh : Hier As le none) : Standard (term As le none) le none where
  int_dom u := ⟨fun h => (by cases h with | int n => exact ⟨n, rfl⟩), fun ⟨n, e⟩ => e ▸ .int n⟩
  int_inj m n h := Val.int.inj h
  bool_dom u := ⟨fun h => (by cases h with | bool n => exact ⟨n, rfl⟩), fun ⟨n, e⟩ => e ▸ .bool n⟩
  bool_inj m n h := Val.bool.inj h
  null_ref := .null
  typeof_dom r _ := .ty _
  pytype_dom c := .ty c
  pytype_inj c d h := Val.ty.inj h
  subtype c d := Iff.rfl
  null_type r hr := by
    show le (classOf As none r) none ↔ r = Val.null
    rw [hh.none_min]
    cases hr with
    | null => exact ⟨fun _ => rfl, fun _ => rfl⟩
    | obj n hc hn => simp [classOf, hn]
    | @box A v hA hv =>
      obtain ⟨c, hc, e⟩ := conNm_mem hh hA hv
      rw [classOf_box hh hA hc e]
      constructor
      · intro e; exact absurd (e ▸ id_mem hA (cons_all hc)) hh.none_out
      · intro h; cases h
  excl t c d ht h1 h2 := by
    cases ht with
    | ty x => exact hh.chain x c d h1 h2
  trans t c d ht h1 h2 := by
    cases ht with
    | ty x => exact hh.trans x c d h1 h2

theorem term_models (hh : Hier As le none) (hr : ¬ Restricted As le) : (term As le none).Models As le none :=
  ⟨term_standard hh, fun A hA => ⟨term_typed hh hA, (sat_iff A (hh.cons A hA)).2 (term_facts hh hr hA)⟩⟩
end pos
end Nagini.Adt
