import Verif.Lemmas.ExprTypes
import Verif.Model.Creates
import Verif.Spec.Creates

namespace Nagini.Creates

open ExprTypes

variable {sub : Nat → Nat → Prop} {P : Prog} {W : World}

/-- Elements of a value of a uniform type have the first type argument. -/
theorem firstArg_typed {t a : Ty} {v : Val} {vs : List Val} (hu : Uniform t)
    (ha : firstArg t = some a) (hv : Has sub v t) (he : elems v = some vs) : Typed sub vs a := by
  cases t with
  | cls c => cases ha
  | opt t => exact hu.elim
  | tup ts =>
    cases ts with
    | nil => cases ha
    | cons b ts =>
      cases ha
      cases hv with
      | tup hl hh =>
        cases he
        intro x hx
        obtain ⟨c, hc, hxc⟩ := tup_mem (.tup hl hh) hx
        have := hu c hc a (by simp)
        subst this
        exact hxc
  | vtup b =>
    cases ha
    cases hv with
    | vtup hh => cases he; exact hh
  | coll k b =>
    cases ha
    cases hv with
    | coll hh => cases he; exact hh
  | dict k w =>
    cases ha
    cases hv with
    | dict hk _ => cases he; exact hk

theorem ints_typed (hs : Sound sub P W) {c : Nat} (hc : c = 6 ∨ c = 7) {v : Val} {vs : List Val}
    (hv : Has sub v (.cls c)) (he : elems v = some vs) : Typed sub vs (.cls 1) := by
  obtain ⟨d, xs, rfl⟩ := hs.ints v c (by rcases hc with h | h <;> simp [h]) (has_cls hv)
  cases he
  intro x hx
  exact mem_ints hs hx

theorem seqArg_typed (hs : Sound sub P W) {t a : Ty} {v : Val} {vs : List Val} (hu : Uniform t)
    (ha : seqArg t = some a) (hv : Has sub v t) (he : elems v = some vs) : Typed sub vs a := by
  cases t with
  | cls c =>
    unfold seqArg at ha
    by_cases hc : c = rangeC ∨ c = bytearrayC
    · simp only [if_pos hc] at ha
      cases ha
      exact ints_typed hs (by rcases hc with h | h <;> simp [h]) hv he
    · simp only [if_neg hc] at ha
      cases ha
  | _ => exact firstArg_typed hu ha hv he

theorem msArg_typed (hs : Sound sub P W) {t a : Ty} {v : Val} {vs : List Val} (hu : Uniform t)
    (ha : msArg t = some a) (hv : Has sub v t) (he : elems v = some vs) : Typed sub vs a := by
  cases t with
  | cls c =>
    unfold msArg at ha
    by_cases hc : c = rangeC
    · simp only [if_pos hc] at ha
      cases ha
      exact ints_typed hs (.inr hc) hv he
    · simp only [if_neg hc] at ha
      cases ha
  | _ => exact firstArg_typed hu ha hv he

/-- The common supertype of copies of a type. -/
theorem common_same (hl : ∀ a, P.lub a a = some a) {a : Ty} :
    ∀ {ts : List Ty}, (∀ b ∈ ts, b = a) → commonFrom P a ts = some a
  | [], _ => rfl
  | b :: ts, h => by
    have hb := h b (by simp)
    subst hb
    rw [commonFrom, hl]
    exact common_same hl fun c hc => h c (by simp [hc])

/-- The first type argument of a uniform type is its type of iteration. -/
theorem firstArg_iter (hl : ∀ a, P.lub a a = some a) {t a : Ty} (hu : Uniform t) (ha : firstArg t = some a) :
    iterTy P t = some a := by
  cases t with
  | cls c => cases ha
  | opt t => exact hu.elim
  | tup ts =>
    cases ts with
    | nil => cases ha
    | cons b ts =>
      cases ha
      exact common_same hl fun c hc => hu c (by simp [hc]) a (by simp)
  | vtup b => cases ha; rfl
  | coll k b => cases ha; rfl
  | dict k w => cases ha; rfl

theorem seqArg_iter (hl : ∀ a, P.lub a a = some a) {t a : Ty} (hu : Uniform t) (ha : seqArg t = some a) :
    iterTy P t = some a := by
  cases t with
  | cls c =>
    unfold seqArg at ha
    by_cases hc : c = rangeC ∨ c = bytearrayC
    · simp only [if_pos hc] at ha
      cases ha
      rcases hc with rfl | rfl <;> rfl
    · simp only [if_neg hc] at ha
      cases ha
  | _ => exact firstArg_iter hl hu ha

theorem msArg_iter (hl : ∀ a, P.lub a a = some a) {t a : Ty} (hu : Uniform t) (ha : msArg t = some a) :
    iterTy P t = some a := by
  cases t with
  | cls c =>
    unfold msArg at ha
    by_cases hc : c = rangeC
    · simp only [if_pos hc] at ha
      cases ha
      subst hc
      rfl
    · simp only [if_neg hc] at ha
      cases ha
  | _ => exact firstArg_iter hl hu ha

/-- The static type of a display is a collection of its kind. -/
theorem disp_kind {tenv : Nat → Option Ty} {k : Kind} {ann : Option Ty} {es : List Exp} {t : Ty}
    (h : typ P tenv (.disp k ann es) = some t) : ∃ a, t = .coll k a := by
  rw [typ] at h
  unfold dispTy at h
  split at h
  · cases h; exact ⟨_, rfl⟩
  · split at h
    · cases h; exact ⟨_, rfl⟩
    · obtain ⟨a, _, rfl⟩ := map_some h
      exact ⟨a, rfl⟩
    · cases h

end Nagini.Creates
