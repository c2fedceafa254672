import Verif.Spec.Enums

/-! C103: enumerations. -/
set_option linter.unusedVariables false
set_option linter.unusedSimpArgs false
namespace Nagini.Enums

/-- What a program may rely on in an interpretation: members are identical exactly if they belong to the same
enumeration and have the same value; comparisons of members compare values; a constructor call gives the member with
that value; every object of the enumeration is one of its members. -/
structure Right {V : Type} (I : Interp V) (P : List Enum) : Prop where
  identity : ∀ c ∈ P, ∀ d ∈ P, ∀ p ∈ c.members, ∀ q ∈ d.members,
    member I c p.1 = member I d q.1 ↔ c = d ∧ p.2 = q.2
  compare : ∀ c ∈ P, ∀ p ∈ c.members, operand I (some c) (member I c p.1) = p.2 ∧ operand I none (member I c p.1) = p.2
  cons : ∀ c ∈ P, ∀ p ∈ c.members, ∀ v, boxPre c v → (construct I c v = member I c p.1 ↔ v = p.2)
  objects : ∀ c ∈ P, ∀ r, I.typeof r = .enum c.sil → ∃ p ∈ c.members, operand I (some c) r = p.2

/-- **C103** (full claim): the contracts of enumerations are consistent, they imply what a program may rely on, and an
object of an enumeration is identical to the member it is equal to. -/
def C103 : Prop :=
  ∀ P, Legal P → (∃ (V : Type) (I : Interp V), Posts I P) ∧ ∀ (V : Type) (I : Interp V), Posts I P → Right I P ∧
    ∀ c ∈ P, ∀ r, I.typeof r = .enum c.sil → ∀ p ∈ c.members, operand I (some c) r = p.2 → r = member I c p.1

/-- The Silver names of the enumerations are their names. -/
def Unrenamed (P : List Enum) : Prop := ∀ c ∈ P, c.name = c.sil

/-- Types of Python's objects; members that do not exist in the program have another type. -/
def tyOf (P : List Enum) : PyObj → Ty
  | .member s v => if ∃ c ∈ P, c.sil = s ∧ v ∈ values c then .enum s else .other 0
  | r => r.ty

/-- Python's objects as an interpretation. -/
def pyInterp (P : List Enum) : Interp PyObj where
  typeof := tyOf P
  unbox := PyObj.val
  boxInt := .int
  boxBool := .bool
  eq := fun a b => a = b ∨ (isInt (tyOf P a) = true ∧ isInt (tyOf P b) = true ∧ a.val = b.val)
  box := .member
  toInt := fun _ r => r.val
  field := fun s m _ => match P.find? (fun c => c.sil = s) with
    | some c => (match c.members.find? (fun q => q.1 = m) with
      | some q => .member s q.2
      | none => .other 0)
    | none => .other 0

theorem mem_values (c : Enum) (p : Nat × Int) (h : p ∈ c.members) : p.2 ∈ values c :=
  List.mem_map.2 ⟨p, h, rfl⟩

theorem find_sil (P : List Enum) (hl : Legal P) (c : Enum) (hc : c ∈ P) : P.find? (fun d => d.sil = c.sil) = some c := by
  have hs : (P.find? (fun d => decide (d.sil = c.sil))).isSome := by
    rw [List.find?_isSome]; exact ⟨c, hc, by simp⟩
  obtain ⟨d, hd⟩ := Option.isSome_iff_exists.1 hs
  have h1 := List.find?_some hd
  have h2 := List.mem_of_find?_eq_some hd
  rw [hd, hl.sil d h2 c hc (by simpa using h1)]

theorem find_member : ∀ (l : List (Nat × Int)), (l.map (·.1)).Nodup → ∀ p ∈ l,
    l.find? (fun q => q.1 = p.1) = some p := by
  intro l
  induction l with
  | nil => intro _ p hp; simp at hp
  | cons q l ih =>
    intro hn p hp
    simp only [List.map_cons, List.nodup_cons] at hn
    rcases List.mem_cons.1 hp with rfl | hp
    · simp
    · have hne : ¬ q.1 = p.1 := fun he => hn.1 (he ▸ List.mem_map.2 ⟨p, hp, rfl⟩)
      rw [List.find?_cons_of_neg (by simpa using hne)]
      exact ih hn.2 p hp

/-- The contracts of enumerations whose names are unique are consistent. -/
theorem C103_consistent_partial (P : List Enum) (hl : Legal P) (hu : Unrenamed P) :
    ∃ (V : Type) (I : Interp V), Posts I P := by
  refine ⟨PyObj, pyInterp P, ?_, ?_⟩
  · refine ⟨fun n => ⟨rfl, rfl⟩, ?_, ?_, fun b => ⟨rfl, rfl⟩, ?_, fun r => Or.inl rfl, ?_, ?_⟩
    · intro r hr
      change tyOf P r = .int at hr
      cases r with
      | int i => rfl
      | bool b => simp [tyOf, PyObj.ty] at hr
      | member s v => simp only [tyOf] at hr; split at hr <;> simp at hr
      | other n => simp [tyOf, PyObj.ty] at hr
    · intro r hr
      change tyOf P r = .bool at hr
      cases r with
      | int i => simp [tyOf, PyObj.ty] at hr
      | bool b => cases b <;> rfl
      | member s v => simp only [tyOf] at hr; split at hr <;> simp at hr
      | other n => simp [tyOf, PyObj.ty] at hr
    · intro r s hr hs
      constructor
      · rintro (rfl | h)
        · rfl
        · exact h.2.2
      · intro h; exact Or.inr ⟨hr, hs, h⟩
    · rintro r s (rfl | ⟨h1, h2, h3⟩)
      · exact Or.inl rfl
      · exact Or.inr ⟨h2, h1, h3.symm⟩
    · rintro r s t (rfl | ⟨h1, h2, h3⟩) (rfl | ⟨h4, h5, h6⟩)
      · exact Or.inl rfl
      · exact Or.inr ⟨h4, h5, h6⟩
      · exact Or.inr ⟨h1, h2, h3⟩
      · exact Or.inr ⟨h1, h5, h3.trans h6⟩
  · intro c hc
    refine ⟨?_, ?_, ?_⟩
    · intro v hv
      refine ⟨?_, rfl, rfl⟩
      show tyOf P (.member c.sil v) = _
      rw [tyOf, if_pos ⟨c, hc, rfl, hv⟩]
    · intro r hr
      change tyOf P r = .enum c.sil at hr
      have key : ∀ r, tyOf P r = .enum c.sil → r.val ∈ values c ∧ isInt (tyOf P r) = true := by
        intro r hr
        refine ⟨?_, by rw [hr]; rfl⟩
        cases r with
        | int i => simp [tyOf, PyObj.ty] at hr
        | bool b => simp [tyOf, PyObj.ty] at hr
        | other n => simp [tyOf, PyObj.ty] at hr
        | member s v =>
          simp only [tyOf] at hr
          split at hr
          · rename_i hx
            obtain ⟨d, hd, h1, h2⟩ := hx
            simp only [Ty.enum.injEq] at hr
            rw [hl.sil d hd c hc (h1.trans hr)] at h2
            exact h2
          · simp at hr
      refine ⟨(key r hr).1, ?_⟩
      rintro i (rfl | ⟨_, _, h⟩) hi
      · rfl
      · exact h.symm
    · intro q hq
      have hf : ∀ t, (pyInterp P).field c.sil q.1 t = .member c.sil q.2 := by
        intro t
        simp only [pyInterp, find_sil P hl c hc, find_member c.members (hl.members c hc) q hq]
      refine ⟨?_, ?_⟩
      · intro t
        rw [hf t]
        show tyOf P (.member c.sil q.2) = _
        rw [tyOf, if_pos ⟨c, hc, rfl, mem_values c q hq⟩]
      · intro t _
        rw [hf t, hu c hc]
        rfl

/-- They imply what a program may rely on. -/
theorem C103_partial (P : List Enum) (hl : Legal P) (hu : Unrenamed P) (V : Type) (I : Interp V) (hI : Posts I P) :
    Right I P := by
  have hm : ∀ c ∈ P, ∀ p ∈ c.members, member I c p.1 = I.box c.sil p.2 := by
    intro c hc p hp
    rw [member, ((hI.2 c hc).2.2 p hp).2 _ rfl, hu c hc]
  have hb : ∀ c ∈ P, ∀ v, boxPre c v → _ := fun c hc => (hI.2 c hc).1
  refine ⟨?_, ?_, ?_, ?_⟩
  · intro c hc d hd p hp q hq
    rw [hm c hc p hp, hm d hd q hq]
    have h1 := hb c hc p.2 (mem_values c p hp)
    have h2 := hb d hd q.2 (mem_values d q hq)
    constructor
    · intro h
      rw [h, h2.1] at h1
      have hcd : c = d := hl.sil c hc d hd (by simpa using h1.1.symm)
      subst hcd
      exact ⟨rfl, by rw [← h1.2.1, h2.2.1]⟩
    · rintro ⟨rfl, h⟩
      rw [h]
  · intro c hc p hp
    rw [hm c hc p hp]
    exact (hb c hc p.2 (mem_values c p hp)).2
  · intro c hc p hp v hv
    rw [hm c hc p hp, construct]
    constructor
    · intro h
      rw [← (hb c hc v hv).2.1, h, (hb c hc p.2 (mem_values c p hp)).2.1]
    · rintro rfl; rfl
  · intro c hc r hr
    have := ((hI.2 c hc).2.1 r hr).1
    simp only [values, List.mem_map] at this
    obtain ⟨p, hp, h⟩ := this
    exact ⟨p, hp, h.symm⟩

/-- A constructor call is verified exactly for the values for which Python does not raise an exception. -/
theorem C103_constructor (P : List Enum) (c : Enum) (v : Int) : boxPre c v ↔ ∃ m, (m, v) ∈ c.members := by
  simp [boxPre, values]

/-- Two modules with `class Color(IntEnum): RED = 1`; the second one is renamed. -/
abbrev colorA : Enum := ⟨0, 0, [(7, 1)]⟩
abbrev colorB : Enum := ⟨0, 5, [(7, 1)]⟩

theorem legalAB : Legal [colorA, colorB] := by
  refine ⟨?_, ?_, ?_⟩
  · intro c hc d hd h
    simp only [List.mem_cons, List.mem_nil_iff, or_false] at hc hd
    rcases hc with rfl | rfl <;> rcases hd with rfl | rfl <;> first | rfl | simp at h
  · decide
  · decide

/-- **C103 fails**: the contracts of enumerations with the same name in two modules are contradictory. -/
theorem C103_fails : Legal [colorA, colorB] ∧ ¬ ∃ (V : Type) (I : Interp V), Posts I [colorA, colorB] := by
  refine ⟨legalAB, ?_⟩
  rintro ⟨V, I, h⟩
  have hA := h.2 colorA (by simp)
  have hB := h.2 colorB (by simp)
  have h1 := hB.2.2 (7, 1) (by simp)
  have h2 := hA.1 1 (by simp [boxPre, values])
  have h3 := h1.1 (.enum 5)
  rw [h1.2 _ rfl] at h3
  have h4 : Ty.enum 0 = Ty.enum 5 := h2.1.symm.trans h3
  simp at h4

/-- More generally: a renamed enumeration whose name is the Silver name of another one with which it shares a value. -/
theorem C103_renamed_fails (P : List Enum) (c d : Enum) (hc : c ∈ P) (hd : d ∈ P) (hne : c.sil ≠ d.sil)
    (hn : d.name = c.sil) (q : Nat × Int) (hq : q ∈ d.members) (hv : boxPre c q.2) :
    ¬ ∃ (V : Type) (I : Interp V), Posts I P := by
  rintro ⟨V, I, h⟩
  have h1 := (h.2 d hd).2.2 q hq
  have h2 := (h.2 c hc).1 q.2 hv
  have h3 := h1.1 (.enum d.sil)
  rw [h1.2 _ rfl, hn, h2.1] at h3
  exact hne (by simpa using h3)

/-- Types and values where an object of the enumeration is equal, but not identical to the member, and its value as an
`int` is a different one. -/
def twinTy : PyObj → Ty
  | .int _ => .int
  | .bool _ => .bool
  | .member s v => if s = 0 ∧ v = 1 then .enum 0 else .other 0
  | .other n => if n = 1 then .enum 0 else .other 0

/-- See `twinTy`. -/
def twinVal : PyObj → Int
  | .other _ => 9
  | r => r.val

/-- See `twinTy`. -/
def twinInterp : Interp PyObj where
  typeof := twinTy
  unbox := twinVal
  boxInt := .int
  boxBool := .bool
  eq := fun a b => a = b ∨ (isInt (twinTy a) = true ∧ isInt (twinTy b) = true ∧ twinVal a = twinVal b)
  box := .member
  toInt := fun _ _ => 1
  field := fun _ _ _ => .member 0 1

/-- **C103** also fails for identities: an object that is equal to the only member need not be this member, and its
value as an `int` need not be that of the member. -/
theorem C103_identity_fails : ∃ (I : Interp PyObj) (r : PyObj), Posts I [colorA] ∧ I.typeof r = .enum colorA.sil ∧
    operand I (some colorA) r = 1 ∧ r ≠ member I colorA 7 ∧ operand I none r ≠ 1 := by
  refine ⟨twinInterp, .other 1, ⟨?_, ?_⟩, rfl, rfl, by decide, by decide⟩
  · refine ⟨fun n => ⟨rfl, rfl⟩, ?_, ?_, fun b => ⟨rfl, rfl⟩, ?_, fun r => Or.inl rfl, ?_, ?_⟩
    · intro r hr
      change twinTy r = .int at hr
      cases r with
      | int i => rfl
      | bool b => simp [twinTy] at hr
      | member s v => simp only [twinTy] at hr; split at hr <;> simp at hr
      | other n => simp only [twinTy] at hr; split at hr <;> simp at hr
    · intro r hr
      change twinTy r = .bool at hr
      cases r with
      | int i => simp [twinTy] at hr
      | bool b => cases b <;> rfl
      | member s v => simp only [twinTy] at hr; split at hr <;> simp at hr
      | other n => simp only [twinTy] at hr; split at hr <;> simp at hr
    · intro r s hr hs
      constructor
      · rintro (rfl | h)
        · rfl
        · exact h.2.2
      · intro h; exact Or.inr ⟨hr, hs, h⟩
    · rintro r s (rfl | ⟨h1, h2, h3⟩)
      · exact Or.inl rfl
      · exact Or.inr ⟨h2, h1, h3.symm⟩
    · rintro r s t (rfl | ⟨h1, h2, h3⟩) (rfl | ⟨h4, h5, h6⟩)
      · exact Or.inl rfl
      · exact Or.inr ⟨h4, h5, h6⟩
      · exact Or.inr ⟨h1, h2, h3⟩
      · exact Or.inr ⟨h1, h5, h3.trans h6⟩
  · intro c hc
    rw [List.mem_singleton.1 hc]
    refine ⟨?_, ?_, ?_⟩
    · intro v hv
      have hv : v = 1 := by simpa [boxPre, values] using hv
      subst hv
      exact ⟨rfl, rfl, rfl⟩
    · intro r hr
      exact ⟨by simp [twinInterp, values], fun i _ _ => rfl⟩
    · intro q hq
      rw [List.mem_singleton.1 hq]
      exact ⟨fun t => rfl, fun t _ => rfl⟩

theorem C103_full_fails : ¬ C103 := fun h => C103_fails.2 (h _ legalAB).1

/-- Non-vacuity: two enumerations with an alias. -/
example : let P : List Enum := [⟨0, 0, [(1, 10), (2, 20), (3, 10)]⟩, ⟨4, 4, [(1, 10)]⟩]
    Legal P ∧ Unrenamed P := by
  refine ⟨⟨?_, by decide, by decide⟩, by simp [Unrenamed]⟩
  intro c hc d hd h
  simp only [List.mem_cons, List.mem_nil_iff, or_false] at hc hd
  rcases hc with rfl | rfl <;> rcases hd with rfl | rfl <;> first | rfl | simp at h

end Nagini.Enums
