import Verif.Spec.Dataclasses

set_option linter.unusedVariables false
set_option linter.unusedSimpArgs false

namespace Nagini.Dataclasses

open Py

variable {E : Type}

/-! ### Defaults -/

theorem filterMap_all {α β : Type} (g : α → Option β) (l : List α)
    (h : ∀ x ∈ l, (g x).isSome) : (l.filterMap g).map some = l.map g := by
  induction l with
  | nil => rfl
  | cons a l ih =>
    obtain ⟨b, hb⟩ := Option.isSome_iff_exists.1 (h a (by simp))
    simp [List.filterMap_cons, hb, ih fun x hx => h x (by simp [hx])]

theorem paramDefaults_eq (fs : List (Fld E))
    (h : fs.Pairwise fun f g => f.result.isSome → g.result.isSome) :
    paramDefaults fs = fs.map (·.result) := by
  induction fs with
  | nil => rfl
  | cons f fs ih =>
    rw [List.pairwise_cons] at h
    have ih := ih h.2
    unfold paramDefaults at *
    cases hr : f.result with
    | none =>
      have hl : (fs.filterMap (·.result)).length ≤ fs.length := List.length_filterMap_le _ _
      simp only [List.filterMap_cons, hr, List.length_cons, List.map_cons]
      rw [Nat.succ_sub hl, List.replicate_succ, List.cons_append, ih]
    | some s =>
      have hall : ∀ x ∈ fs, x.result.isSome := fun x hx => h.1 x hx (by simp [hr])
      have he := filterMap_all (·.result) fs hall
      have hlen : (fs.filterMap (·.result)).length = fs.length := by
        have := congrArg List.length he
        simpa using this
      simp only [List.filterMap_cons, hr, List.length_cons, List.map_cons, hlen]
      simp [he]

/-! ### Keywords -/

theorem lookup_none {ks : List (Name × E)} {n : Name} (h : n ∉ ks.map (·.1)) :
    ks.lookup n = none := by
  induction ks with
  | nil => rfl
  | cons k ks ih =>
    obtain ⟨m, e⟩ := k
    simp only [List.map_cons, List.mem_cons, not_or] at h
    have hb : (n == m) = false := by simpa using h.1
    rw [List.lookup_cons, hb]
    exact ih h.2

theorem lookup_of_mem {ks : List (Name × E)} {n : Name} (h : n ∈ ks.map (·.1)) :
    ∃ e, ks.lookup n = some e ∧ (n, e) ∈ ks := by
  induction ks with
  | nil => simp at h
  | cons k ks ih =>
    obtain ⟨m, e⟩ := k
    by_cases hm : n = m
    · subst hm
      exact ⟨e, by simp [List.lookup_cons], by simp⟩
    · have hb : (n == m) = false := by simpa using hm
      simp only [List.map_cons, List.mem_cons, hm, false_or] at h
      obtain ⟨e', h1, h2⟩ := ih h
      exact ⟨e', by rw [List.lookup_cons, hb]; exact h1, by simp [h2]⟩

/-- The argument for parameter `n` after the loop over the keywords. -/
def override (ks : List (Name × E)) (n : Name) (a : Option (Val E)) : Option (Val E) :=
  match ks.lookup n with
  | some e => some (.arg e)
  | none => a

theorem override_none {ks : List (Name × E)} {n : Name} {a : Option (Val E)}
    (h : n ∉ ks.map (·.1)) : override ks n a = a := by
  unfold override
  rw [lookup_none h]

theorem bindKw_eq (keys : List Name) (hk : keys.Nodup) (ks : List (Name × E)) :
    ∀ args : List (Option (Val E)), args.length = keys.length → (ks.map (·.1)).Nodup →
      bindKw keys args ks = List.zipWith (override ks) keys args := by
  induction ks with
  | nil =>
    intro args hl _
    apply List.ext_getElem
    · simp [bindKw, hl]
    · intro i h1 h2
      simp [bindKw, override]
  | cons k ks ih =>
    obtain ⟨n, e⟩ := k
    intro args hl hn
    rw [List.map_cons, List.nodup_cons] at hn
    unfold bindKw
    by_cases hm : n ∈ keys
    · rw [if_pos hm, ih _ (by simpa using hl) hn.2]
      apply List.ext_getElem
      · simp
      · intro i h1 h2
        simp only [List.length_zipWith, List.length_set] at h1 h2
        have hik : i < keys.length := by omega
        simp only [List.getElem_zipWith]
        by_cases hi : keys[i] = n
        · have hidx : keys.idxOf n = i := by
            rw [← hi]
            exact hk.idxOf_getElem i hik
          have hs : (args.set (keys.idxOf n) (some (Val.arg e)))[i]'(by simpa using (by omega)) =
              some (Val.arg e) := by simp [hidx]
          rw [hs, hi, override_none hn.1]
          simp [override, List.lookup_cons]
        · have hidx : keys.idxOf n ≠ i := by
            intro h
            apply hi
            have := List.getElem_idxOf (List.idxOf_lt_length_of_mem hm)
            simp only [h] at this
            exact this
          have hb : (keys[i] == n) = false := by simpa using hi
          rw [List.getElem_set_ne hidx]
          simp [override, List.lookup_cons, hb]
    · rw [if_neg hm, ih _ hl hn.2]
      apply List.ext_getElem
      · simp
      · intro i h1 h2
        simp only [List.length_zipWith] at h1
        have hik : i < keys.length := by omega
        have hi : keys[i] ≠ n := fun h => hm (h ▸ List.getElem_mem _)
        have hb : (keys[i] == n) = false := by simpa using hi
        simp [override, List.lookup_cons, hb]

/-! ### Python's values -/

/-- `valuesFrom` over a list of remaining positional arguments. -/
def valuesL (ks : List (Name × E)) : List E → List (Name × Option (Dflt E)) →
    Option (List (Name × Val E))
  | _, [] => some []
  | e :: ps, (n, d) :: fs => (valuesL ks ps fs).map ((n, Val.arg e) :: ·)
  | [], (n, d) :: fs =>
    match ks.lookup n, d with
    | some e, _ => (valuesL ks [] fs).map ((n, Val.arg e) :: ·)
    | none, some d => (valuesL ks [] fs).map ((n, dfltVal d) :: ·)
    | none, none => none

theorem valuesFrom_eq (ps : List E) (ks : List (Name × E)) :
    ∀ fs i, valuesFrom ps ks i fs = valuesL ks (ps.drop i) fs := by
  intro fs
  induction fs with
  | nil => intro i; cases ps.drop i <;> rfl
  | cons f fs ih =>
    obtain ⟨n, d⟩ := f
    intro i
    have ih := ih (i + 1)
    have hd : ps.drop (i + 1) = (ps.drop i).tail := by simp
    rw [hd] at ih
    have hi : ps[i]? = (ps.drop i).head? := by simp
    unfold valuesFrom
    rw [ih, hi]
    cases hp : ps.drop i with
    | nil =>
      cases hk : ks.lookup n with
      | none =>
        cases d <;> simp [valuesL, hk] <;> cases valuesL ks [] fs <;> rfl
      | some e => simp [valuesL, hk]; cases valuesL ks [] fs <;> rfl
    | cons e es => simp [valuesL]; cases valuesL ks es fs <;> rfl

/-- The entry the analyzer makes for a declaration. -/
def toFld (f : Name × Option (Dflt E)) : Fld E :=
  match f.2 with
  | none => ⟨f.1, none, false⟩
  | some (.const e) => ⟨f.1, some (.expr e), false⟩
  | some .factory => ⟨f.1, some .sentinel, true⟩

theorem toFld_name (f : Name × Option (Dflt E)) : (toFld f).name = f.1 := by
  obtain ⟨n, d⟩ := f
  rcases d with _ | _ | _ <;> rfl

theorem toFld_result (f : Name × Option (Dflt E)) : (toFld f).result.isSome = f.2.isSome := by
  obtain ⟨n, d⟩ := f
  rcases d with _ | _ | _ <;> rfl

theorem map_toFld_name (fs : List (Name × Option (Dflt E))) :
    (fs.map toFld).map (·.name) = fs.map (·.1) := by
  simp [List.map_map, Function.comp_def, toFld_name]

/-- The arguments before the loop over the keywords. -/
def start (ps : List E) (n : Nat) : List (Option (Val E)) :=
  (ps.take n).map (fun e => some (Val.arg e)) ++
    List.replicate (n - ((ps.take n).map (fun e => some (Val.arg (E := E) e))).length) none

theorem start_length (ps : List E) (n : Nat) : (start ps n).length = n := by
  simp [start]; omega

theorem start_cons (e : E) (ps : List E) (n : Nat) :
    start (e :: ps) (n + 1) = some (.arg e) :: start ps n := by
  simp [start]

theorem start_nil (n : Nat) : start ([] : List E) (n + 1) = none :: start [] n := by
  simp [start, List.replicate_succ]

theorem fillIn_eq (ks : List (Name × E)) : ∀ (fs : List (Name × Option (Dflt E))) (ps : List E),
    (∀ n ∈ (fs.take ps.length).map (·.1), n ∉ ks.map (·.1)) →
    fillIn (fs.map toFld) ((fs.map toFld).map (·.result))
      (List.zipWith (override ks) (fs.map (·.1)) (start ps fs.length)) = valuesL ks ps fs := by
  intro fs
  induction fs with
  | nil => intro ps _; cases ps <;> rfl
  | cons f fs ih =>
    obtain ⟨n, d⟩ := f
    intro ps hps
    cases ps with
    | cons e ps =>
      have ih := ih ps fun m hm => hps m (by simp at hm ⊢; exact Or.inr hm)
      have hn : n ∉ ks.map (·.1) := hps n (by simp)
      simp only [List.map_cons, List.length_cons, start_cons, List.zipWith_cons_cons,
        override_none hn, fillIn, ih, valuesL, toFld_name]
    | nil =>
      have ih := ih [] (by simp)
      simp only [List.map_cons, List.length_cons, start_nil, List.zipWith_cons_cons]
      cases hk : ks.lookup n with
      | some e =>
        simp only [override, hk, fillIn, valuesL, toFld_name]
        rw [← ih]
      | none =>
        simp only [override, hk, valuesL]
        rcases d with _ | _ | _
        · simp [fillIn, toFld]
        · simp only [fillIn, toFld, dfltVal]
          rw [← ih]
        · simp only [fillIn, toFld, dfltVal]
          rw [← ih]

/-! ### Names are different -/

theorem insertField_names (fs : List (Name × Option (Dflt E))) (n : Name) (d : Option (Dflt E)) :
    (insertField fs n d).map (·.1) =
      if n ∈ fs.map (·.1) then fs.map (·.1) else fs.map (·.1) ++ [n] := by
  unfold insertField
  split
  · rw [List.map_map]
    apply List.map_congr_left
    intro f _
    simp only [Function.comp]
    split
    · rename_i h; exact h.symm
    · rfl
  · simp

theorem insertField_nodup {fs : List (Name × Option (Dflt E))} (n : Name) (d : Option (Dflt E))
    (h : (fs.map (·.1)).Nodup) : ((insertField fs n d).map (·.1)).Nodup := by
  rw [insertField_names]
  split
  · exact h
  · rename_i hn
    rw [List.nodup_append]
    refine ⟨h, by simp, ?_⟩
    intro a ha b hb hab
    simp only [List.mem_singleton] at hb
    exact hn (hb ▸ hab ▸ ha)

/-- One step of Python's collection of fields. -/
def pyStep (chain : List (Cls E)) (fs : List (Name × Option (Dflt E))) (m : Member E) :
    List (Name × Option (Dflt E)) :=
  match m with
  | .ann n d => insertField fs n (fieldDefault chain n d)
  | _ => fs

theorem pyFields_cons (c : Cls E) (cs : List (Cls E)) :
    pyFields (c :: cs) =
      if c.dataclass then c.body.foldl (pyStep (c :: cs)) (pyFields cs) else pyFields cs := rfl

theorem pyStep_nodup (chain : List (Cls E)) : ∀ (body : List (Member E))
    (fs : List (Name × Option (Dflt E))), (fs.map (·.1)).Nodup →
    ((body.foldl (pyStep chain) fs).map (·.1)).Nodup := by
  intro body
  induction body with
  | nil => intro fs h; exact h
  | cons m body ih =>
    intro fs h
    rw [List.foldl_cons]
    apply ih
    cases m <;> first | exact h | exact insertField_nodup _ _ h

theorem pyFields_nodup (chain : List (Cls E)) : ((pyFields chain).map (·.1)).Nodup := by
  induction chain with
  | nil => simp [pyFields]
  | cons c cs ih =>
    rw [pyFields_cons]
    split
    · exact pyStep_nodup _ _ _ ih
    · exact ih

theorem pyStep_head (chain : List (Cls E)) (b : Name) : ∀ (body : List (Member E))
    (fs : List (Name × Option (Dflt E))), (fs.map (·.1)).head? = some b →
    ((body.foldl (pyStep chain) fs).map (·.1)).head? = some b := by
  intro body
  induction body with
  | nil => intro fs h; exact h
  | cons m body ih =>
    intro fs h
    rw [List.foldl_cons]
    apply ih
    cases m with
    | ann n d =>
      show ((insertField fs n _).map (·.1)).head? = _
      rw [insertField_names]
      split
      · exact h
      · rw [List.head?_append, h]; rfl
    | _ => exact h

theorem pyFields_head (c : Cls E) (cs : List (Cls E)) {b : Name}
    (h : ((pyFields cs).map (·.1)).head? = some b) :
    ((pyFields (c :: cs)).map (·.1)).head? = some b := by
  rw [pyFields_cons]
  split
  · exact pyStep_head _ _ _ _ h
  · exact h

/-! ### The fields the analyzer finds -/

theorem addField_names (fs : List (Fld E)) (n : Name) :
    (addField fs n).map (·.name) =
      if n ∈ fs.map (·.name) then fs.map (·.name) else fs.map (·.name) ++ [n] := by
  unfold addField
  split <;> simp

theorem putProperty_names (fs : List (Fld E)) (n : Name) :
    (putProperty fs n).map (·.name) =
      if n ∈ fs.map (·.name) then fs.map (·.name) else fs.map (·.name) ++ [n] := by
  unfold putProperty
  split
  · rw [List.map_map]
    apply List.map_congr_left
    intro f _
    simp only [Function.comp]
    split
    · rename_i h; exact h.symm
    · rfl
  · simp

theorem setResult_names (fs : List (Fld E)) (n : Name) (d : Option (Dflt E)) :
    (setResult fs n d).map (·.name) = fs.map (·.name) := by
  rcases d with _ | _ | _
  · rfl
  · simp only [setResult, List.map_map]
    apply List.map_congr_left
    intro f _
    simp only [Function.comp]
    split <;> rfl
  · simp only [setResult, List.map_map]
    apply List.map_congr_left
    intro f _
    simp only [Function.comp]
    split <;> rfl

theorem declare_names (fr : Bool) (fs : List (Fld E)) (n : Name) (d : Option (Dflt E)) :
    (declare fr fs n d).map (·.name) =
      if n ∈ fs.map (·.name) then fs.map (·.name) else fs.map (·.name) ++ [n] := by
  unfold declare
  rw [setResult_names]
  cases fr
  · exact addField_names _ _
  · exact putProperty_names _ _

theorem snoc_nodup {l : List Name} {n : Name} (h : l.Nodup) :
    (if n ∈ l then l else l ++ [n]).Nodup := by
  split
  · exact h
  · rename_i hn
    rw [List.nodup_append]
    refine ⟨h, by simp, ?_⟩
    intro a ha b hb hab
    simp only [List.mem_singleton] at hb
    exact hn (hb ▸ hab ▸ ha)

theorem visitMember_nodup (fr : Bool) (fs : List (Fld E)) (m : Member E)
    (h : (fs.map (·.name)).Nodup) : ((visitMember fr fs m).map (·.name)).Nodup := by
  cases m <;> simp only [visitMember, declare_names, putProperty_names, addField_names] <;>
    exact snoc_nodup h

theorem fields_nodup (c : Cls E) : ((fields c).map (·.name)).Nodup := by
  have : ∀ (body : List (Member E)) (fs : List (Fld E)), (fs.map (·.name)).Nodup →
      ((body.foldl (visitMember c.frozen) fs).map (·.name)).Nodup := by
    intro body
    induction body with
    | nil => intro fs h; exact h
    | cons m body ih =>
      intro fs h
      rw [List.foldl_cons]
      exact ih _ (visitMember_nodup _ _ _ h)
  exact this _ _ (by simp)

theorem declare_new (fr : Bool) (fs : List (Name × Option (Dflt E))) (n : Name)
    (d : Option (Dflt E)) (h : n ∉ fs.map (·.1)) :
    declare fr (fs.map toFld) n d = (fs ++ [(n, d)]).map toFld := by
  have hn : n ∉ (fs.map toFld).map (·.name) := by rw [map_toFld_name]; exact h
  have hid : ∀ g : Fld E → Fld E, (fs.map toFld).map (fun f => if f.name = n then g f else f) =
      fs.map toFld := by
    intro g
    conv => rhs; rw [← List.map_id (fs.map toFld)]
    apply List.map_congr_left
    intro f hf
    rw [if_neg]
    · rfl
    · exact fun he => hn (he ▸ List.mem_map_of_mem hf)
  have h1 : (if fr then putProperty (fs.map toFld) n else addField (fs.map toFld) n) =
      fs.map toFld ++ [⟨n, none, false⟩] := by
    cases fr
    · simp only [addField, if_neg hn]; rfl
    · simp only [putProperty, if_neg hn]; rfl
  unfold declare
  rw [h1]
  rcases d with _ | _ | _
  · simp [setResult, toFld]
  · simp only [setResult, List.map_append, hid]
    simp [toFld]
  · simp only [setResult, List.map_append, hid]
    simp [toFld]

theorem initCall_eq (c : Cls E) (ps : List E) (ks : List (Name × E)) :
    initCall c ps ks = fillIn (fields c) (paramDefaults (fields c))
      (bindKw ((fields c).map (·.name)) (start ps (fields c).length) ks) := rfl

theorem initCall_aligned (c : Cls E) (fs : List (Name × Option (Dflt E))) (ps : List E)
    (ks : List (Name × E)) (r : List (Name × Val E)) (hf : fields c = fs.map toFld)
    (hc : Creatable fs) (h : Constructs fs ps ks r) : initCall c ps ks = some r := by
  have hnd : (fs.map (·.1)).Nodup := by
    have := fields_nodup c
    rwa [hf, map_toFld_name] at this
  rw [initCall_eq, hf, map_toFld_name, List.length_map, paramDefaults_eq,
    bindKw_eq _ hnd _ _ (by simp [start_length]) h.nodup, fillIn_eq]
  · have := h.values
    rw [valuesFrom_eq] at this
    exact this
  · intro n hn hk
    obtain ⟨k, hk1, hk2⟩ := List.mem_map.1 hk
    have h2 := h.known k hk1
    rw [hk2] at h2
    have hsplit : fs.map (·.1) = (fs.take ps.length).map (·.1) ++ (fs.drop ps.length).map (·.1) := by
      rw [← List.map_append, List.take_append_drop]
    rw [hsplit, List.nodup_append] at hnd
    exact hnd.2.2 n hn n h2 rfl
  · rw [List.pairwise_map]
    refine hc.imp ?_
    intro a b hab
    rw [toFld_result, toFld_result]
    exact hab

/-! ### Calls in which all parameters are keywords -/

theorem fillIn_all (ks : List (Name × E)) : ∀ (fs : List (Fld E)) (ds : List (Option (Src E))),
    ds.length = fs.length → (∀ f ∈ fs, f.name ∈ ks.map (·.1)) → ∀ q,
    fillIn fs ds (List.zipWith (override ks) (fs.map (·.name)) (start [] fs.length)) = some q →
    ∀ n v, (n, v) ∈ q → n ∈ fs.map (·.name) ∧ ∃ e, ks.lookup n = some e ∧ v = .arg e := by
  intro fs
  induction fs with
  | nil =>
    intro ds _ _ q hq n v hm
    cases ds <;> simp only [fillIn, Option.some.injEq] at hq <;> subst hq <;> simp at hm
  | cons f fs ih =>
    intro ds hl hall q hq n v hm
    cases ds with
    | nil => simp at hl
    | cons d ds =>
      obtain ⟨e, he, _⟩ := lookup_of_mem (hall f (by simp))
      simp only [List.map_cons, List.length_cons, start_nil, List.zipWith_cons_cons, override, he,
        fillIn, Option.map_eq_some_iff] at hq
      obtain ⟨q', hq', rfl⟩ := hq
      rw [List.mem_cons] at hm
      rcases hm with hm | hm
      · simp only [Prod.mk.injEq] at hm
        exact ⟨by simp [hm.1], e, by rw [hm.1]; exact he, hm.2⟩
      · obtain ⟨h1, h2⟩ := ih ds (by simpa using hl) (fun g hg => hall g (by simp [hg])) q' hq' n v hm
        exact ⟨by simp at h1 ⊢; exact Or.inr h1, h2⟩

theorem valuesL_kw (ks : List (Name × E)) : ∀ (fs : List (Name × Option (Dflt E)))
    (r : List (Name × Val E)), valuesL ks [] fs = some r → ∀ n e, n ∈ fs.map (·.1) →
    ks.lookup n = some e → (n, Val.arg e) ∈ r := by
  intro fs
  induction fs with
  | nil => intro r _ n e hn; simp at hn
  | cons f fs ih =>
    obtain ⟨m, d⟩ := f
    intro r hr n e hn he
    rw [List.map_cons, List.mem_cons] at hn
    rcases hn with rfl | hn
    · simp only [valuesL, he, Option.map_eq_some_iff] at hr
      obtain ⟨r', _, rfl⟩ := hr
      simp
    · have : ∃ v r', valuesL ks [] fs = some r' ∧ r = v :: r' := by
        cases hk : ks.lookup m with
        | some e' =>
          simp only [valuesL, hk, Option.map_eq_some_iff] at hr
          obtain ⟨r', h1, h2⟩ := hr
          exact ⟨_, r', h1, h2.symm⟩
        | none =>
          cases d with
          | none => simp [valuesL, hk] at hr
          | some d =>
            simp only [valuesL, hk, Option.map_eq_some_iff] at hr
            obtain ⟨r', h1, h2⟩ := hr
            exact ⟨_, r', h1, h2.symm⟩
      obtain ⟨v, r', h1, rfl⟩ := this
      exact List.mem_cons_of_mem _ (ih r' h1 n e hn he)

theorem paramDefaults_length (fs : List (Fld E)) : (paramDefaults fs).length = fs.length := by
  have hl : (fs.filterMap (·.result)).length ≤ fs.length := List.length_filterMap_le _ _
  simp [paramDefaults]
  omega

/-! ### Values come from arguments -/

theorem valuesL_src (ks : List (Name × E)) : ∀ (fs : List (Name × Option (Dflt E))) (ps : List E)
    (r : List (Name × Val E)), valuesL ks ps fs = some r → ∀ n e, (n, Val.arg e) ∈ r →
    e ∈ ps ∨ e ∈ ks.map (·.2) := by
  intro fs
  induction fs with
  | nil =>
    intro ps r hr n e hm
    cases ps <;> simp only [valuesL, Option.some.injEq] at hr <;> subst hr <;> simp at hm
  | cons f fs ih =>
    obtain ⟨m, d⟩ := f
    intro ps r hr n e hm
    cases ps with
    | cons p ps =>
      simp only [valuesL, Option.map_eq_some_iff] at hr
      obtain ⟨r', h1, rfl⟩ := hr
      rw [List.mem_cons] at hm
      rcases hm with hm | hm
      · simp only [Prod.mk.injEq, Val.arg.injEq] at hm
        exact Or.inl (by simp [hm.2])
      · rcases ih ps r' h1 n e hm with h | h
        · exact Or.inl (by simp [h])
        · exact Or.inr h
    | nil =>
      cases hk : ks.lookup m with
      | some e' =>
        simp only [valuesL, hk, Option.map_eq_some_iff] at hr
        obtain ⟨r', h1, rfl⟩ := hr
        rw [List.mem_cons] at hm
        rcases hm with hm | hm
        · simp only [Prod.mk.injEq, Val.arg.injEq] at hm
          refine Or.inr ?_
          have hin : m ∈ ks.map (·.1) := Decidable.byContradiction fun h => by
            rw [lookup_none h] at hk; cases hk
          obtain ⟨e2, h2, h3⟩ := lookup_of_mem hin
          rw [hk] at h2
          cases h2
          exact List.mem_map.2 ⟨_, h3, hm.2.symm⟩
        · exact ih [] r' h1 n e hm
      | none =>
        cases d with
        | none => simp [valuesL, hk] at hr
        | some d =>
          simp only [valuesL, hk, Option.map_eq_some_iff] at hr
          obtain ⟨r', h1, rfl⟩ := hr
          rw [List.mem_cons] at hm
          rcases hm with hm | hm
          · cases d <;> simp [dfltVal] at hm
          · exact ih [] r' h1 n e hm

end Nagini.Dataclasses
