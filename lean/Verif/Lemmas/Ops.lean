import Verif.Spec.Ops
import Verif.Lemmas.Classes
import Mathlib.Tactic.ByContra

set_option linter.unusedVariables false
namespace Nagini.Ops

open Classes

variable {H : Hier} {D : Members}

theorem called_eq (funcs methods : Nat → Option Meth) (c : Nat) :
    called H funcs methods c = getFuncOrMethod H funcs methods c := by
  unfold called getFuncOrMethod
  rw [hasFunction_iff]
  cases lookup H funcs c <;> simp

theorem compatible_some {funcs methods : Nat → Option Meth} {c : Nat} {args : List Nat} {m : Meth} :
    compatible H funcs methods c args = some m ↔
      getFuncOrMethod H funcs methods c = some m ∧ accepts H m args = true := by
  unfold compatible
  cases getFuncOrMethod H funcs methods c with
  | none => simp
  | some m' =>
    by_cases ha : accepts H m' args = true
    · simp only [ha, if_true]
      constructor
      · rintro ⟨rfl⟩; exact ⟨rfl, ha⟩
      · rintro ⟨h, -⟩; exact h
    · simp only [ha]
      constructor
      · intro h; cases h
      · rintro ⟨h, h'⟩
        cases h
        exact absurd h' ha

theorem called_of_compatible {funcs methods : Nat → Option Meth} {c : Nat} {args : List Nat} {m : Meth}
    (h : compatible H funcs methods c args = some m) : called H funcs methods c = some m := by
  rw [called_eq]; exact (compatible_some.1 h).1

theorem rightFirst_some {L R : Nat} {rf : Option Meth} {m : Meth}
    (h : rightFirst H D L R rf = some m) : rf = some m := by
  unfold rightFirst at h
  split at h
  · cases h
  · split at h
    · split at h
      · exact h
      · cases h
    · cases h

/-- `callChoice` in terms of the compatible methods only. -/
theorem callChoice_eq (L R : Nat) (hne : L ≠ R) :
    callChoice H D L R =
      match rightFirst H D L R (compatible H D.rfuncs D.rmethods R [R, L]) with
      | some m => some (.right m)
      | none =>
        match compatible H D.lfuncs D.lmethods L [L, R] with
        | some m => some (.left m)
        | none => (compatible H D.rfuncs D.rmethods R [R, L]).map .right := by
  unfold callChoice
  rw [if_neg hne]
  dsimp only
  cases hf : rightFirst H D L R (compatible H D.rfuncs D.rmethods R [R, L]) with
  | some m =>
    dsimp only
    rw [called_of_compatible (rightFirst_some hf)]
    rfl
  | none =>
    dsimp only
    cases hl : compatible H D.lfuncs D.lmethods L [L, R] with
    | some m =>
      dsimp only
      rw [called_of_compatible hl]
      rfl
    | none =>
      dsimp only
      cases hr : compatible H D.rfuncs D.rmethods R [R, L] with
      | some m =>
        dsimp only
        rw [called_of_compatible hr]
      | none => rfl

theorem typeChoice_eq (L R : Nat) (hne : L ≠ R) :
    typeChoice H D L R =
      match compatible H D.rfuncs D.rmethods R [R, L] with
      | some m => some (.right m)
      | none => (compatible H D.lfuncs D.lmethods L [L, R]).map .left := by
  unfold typeChoice
  rw [if_neg hne]
  dsimp only
  cases hf : rightFirst H D L R (compatible H D.rfuncs D.rmethods R [R, L]) with
  | some m => rw [rightFirst_some hf]
  | none => cases hr : compatible H D.rfuncs D.rmethods R [R, L] <;> rfl

theorem same_eq (L : Nat) : typeChoice H D L L = callChoice H D L L := by
  unfold typeChoice callChoice
  rw [if_pos rfl, if_pos rfl, called_eq]

/-! ### lookup -/

theorem look_own (funcs methods : Nat → Option Meth)
    (hu : ∀ c d, Anc H c d → ∀ f m, ¬ (funcs d = some f ∧ methods c = some m)) (c : Nat) :
    getFuncOrMethod H funcs methods c = lookup H (own funcs methods) c := by
  induction hn : H.depth c using Nat.strongRecOn generalizing c with
  | _ n ih =>
    unfold getFuncOrMethod
    cases hm : methods c with
    | some m =>
      have hl : lookup H funcs c = none := by
        rw [lookup_none]
        intro d hd
        cases hf : funcs d with
        | none => rfl
        | some f => exact absurd ⟨hf, hm⟩ (hu c d hd f m)
      rw [hl, lookup, hm]
      rw [lookup]
      simp [own, hm]
    | none =>
      cases hf : funcs c with
      | some f =>
        have e1 : lookup H funcs c = some f := by rw [lookup, hf]
        have e3 : lookup H (own funcs methods) c = some f := by rw [lookup]; simp [own, hm, hf]
        rw [e1, e3]
      | none =>
        cases hs : H.sup c with
        | none =>
          have e1 : lookup H funcs c = none := by rw [lookup, hf]; simp only; split <;> simp_all
          have e2 : lookup H methods c = none := by rw [lookup, hm]; simp only; split <;> simp_all
          have e3 : lookup H (own funcs methods) c = none := by
            rw [lookup]; simp only [own, hm, hf]; split <;> simp_all
          rw [e1, e2, e3]
        | some p =>
          have e1 : lookup H funcs c = lookup H funcs p := by
            rw [lookup, hf]; simp only; split <;> simp_all
          have e2 : lookup H methods c = lookup H methods p := by
            rw [lookup, hm]; simp only; split <;> simp_all
          have e3 : lookup H (own funcs methods) c = lookup H (own funcs methods) p := by
            rw [lookup]; simp only [own, hm, hf]; split <;> simp_all
          have := ih _ (by have := H.depth_lt c p hs; omega) p rfl
          unfold getFuncOrMethod at this
          rw [e1, e2, e3, this]

theorem look_iff (funcs methods : Nat → Option Meth)
    (hu : ∀ c d, Anc H c d → ∀ f m, ¬ (funcs d = some f ∧ methods c = some m)) (c : Nat) (m : Meth) :
    getFuncOrMethod H funcs methods c = some m ↔ Nearest H (own funcs methods) c m := by
  rw [look_own funcs methods hu, lookup_iff]

theorem own_wf {funcs methods : Nat → Option Meth}
    (hf : ∀ c m, funcs c = some m → m.cls = c ∧ ∃ p, m.params = [[c], p])
    (hm : ∀ c m, methods c = some m → m.cls = c ∧ ∃ p, m.params = [[c], p]) {c : Nat} {m : Meth}
    (h : own funcs methods c = some m) : m.cls = c ∧ ∃ p, m.params = [[c], p] := by
  unfold own at h
  split at h
  · cases h; exact hm _ _ (by assumption)
  · exact hf _ _ h

theorem accepts_iff {m : Meth} {d self o : Nat} {p : List Nat} (hp : m.params = [[d], p])
    (hs : Anc H self d) : accepts H m [self, o] = true ↔ Takes H m o := by
  unfold accepts Takes
  rw [hp]
  simp only [List.zip_cons_cons, List.zip_nil_right, List.all_cons, List.any_cons, List.any_nil, Bool.or_false,
    List.all_nil, Bool.and_true, Bool.and_eq_true, List.any_eq_true, issubtype_iff]
  constructor
  · rintro ⟨-, h⟩; exact ⟨[d], p, rfl, h⟩
  · rintro ⟨s, p', h1, h2⟩
    simp only [List.cons.injEq, and_true] at h1
    obtain ⟨-, rfl⟩ := h1
    exact ⟨hs, h2⟩

/-- A compatible method is the nearest one and takes the operand. -/
theorem compatible_iff {funcs methods : Nat → Option Meth}
    (hu : ∀ c d, Anc H c d → ∀ f m, ¬ (funcs d = some f ∧ methods c = some m))
    (hf : ∀ c m, funcs c = some m → m.cls = c ∧ ∃ p, m.params = [[c], p])
    (hm : ∀ c m, methods c = some m → m.cls = c ∧ ∃ p, m.params = [[c], p]) (c self o : Nat)
    (hs : Anc H self c) (m : Meth) :
    compatible H funcs methods c [self, o] = some m ↔
      Nearest H (own funcs methods) c m ∧ Takes H m o := by
  rw [compatible_some, look_iff funcs methods hu]
  constructor
  · rintro ⟨h, ha⟩
    refine ⟨h, ?_⟩
    obtain ⟨d, hd, ho, -⟩ := h
    obtain ⟨-, p, hp⟩ := own_wf hf hm ho
    exact (accepts_iff hp (hs.trans hd)).1 ha
  · rintro ⟨h, ha⟩
    refine ⟨h, ?_⟩
    obtain ⟨d, hd, ho, -⟩ := h
    obtain ⟨-, p, hp⟩ := own_wf hf hm ho
    exact (accepts_iff hp (hs.trans hd)).2 ha

end Nagini.Ops
