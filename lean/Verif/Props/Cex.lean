import Verif.Lemmas.Cex

/-!
# Counterexamples

* C81: references that differ have different names in a counterexample.
* C82: terms are evaluated as the solver's model says.
* C83: integers and booleans are shown with their values.
* C84: objects are shown with their classes.
-/

set_option linter.unusedVariables false

namespace Nagini.Cex

deriving instance DecidableEq for Except

/-! ## C81: names -/

/-- The claim: references with different values get different names (except
that any value of class `NoneType` is called `None`). -/
def C81_names_distinct : Prop :=
  ∀ (C : Nat → Cls) (m : Model) (noneC fuel : Nat) (reqs : List (Str × PyT)) ns rv,
    nameAll C m noneC fuel [] reqs = .ok (ns, rv) →
    ∀ p ∈ reqs.zip ns, ∀ q ∈ reqs.zip ns, p.1.1 ≠ q.1.1 → p.2 = q.2 → p.2 = "None".toList

/-- Classes `A` and `B`, and another class `A` of another module. -/
def exC : Nat → Cls
  | 0 => ⟨"A".toList, "A".toList, [], []⟩
  | 1 => ⟨"B".toList, "B".toList, [], []⟩
  | 2 => ⟨"A".toList, "A_0".toList, [], []⟩
  | _ => ⟨"NoneType".toList, "NoneType".toList, [], []⟩

/-- A model with three objects, of the first class `A`, of the other class `A`,
and of an unknown class. -/
def exM : TModel :=
  [("A<PyType>".toList, .const (.atom "T0".toList)),
   ("B<PyType>".toList, .const (.atom "T1".toList)),
   ("A_0<PyType>".toList, .const (.atom "T2".toList)),
   ("NoneType<PyType>".toList, .const (.atom "T3".toList)),
   ("typeof<PyType>".toList, .func [([.atom "r0".toList], .atom "T0".toList),
      ([.atom "r1".toList], .atom "T2".toList)] (.atom "T9".toList)),
   ("get_basic<PyType>".toList, .func [] (.atom "T9".toList)),
   ("issubtype<Bool>".toList, .func [] (.atom "false".toList))]

/-- Two references whose types are unknown are both called `?0` if they are
used with different declared types: the names in use are compared together with
the types. -/
theorem C81_names_distinct_fails : ¬ C81_names_distinct := by
  intro h
  have := h exC (extractModel exM) 3 5 [("r5".toList, .cls 0), ("r6".toList, .cls 1)]
    ["?0".toList, "?0".toList]
    [("r5".toList, ("?0".toList, .cls 0)), ("r6".toList, ("?0".toList, .cls 1))]
    (by decide +kernel) (("r5".toList, .cls 0), "?0".toList) (by decide +kernel)
    (("r6".toList, .cls 1), "?0".toList) (by decide +kernel) (by decide +kernel) rfl
  exact absurd this (by decide +kernel)

/-- So are objects of two classes of the same name in different modules. -/
theorem C81_same_class_name_fails :
    nameAll exC (extractModel exM) 3 5 [] [("r0".toList, .cls 0), ("r1".toList, .cls 2)]
      = .ok (["A0".toList, "A0".toList],
        [("r0".toList, ("A0".toList, .cls 0)), ("r1".toList, ("A0".toList, .cls 2))]) := by
  decide +kernel

/-- Two names of types are apart if no numbering makes them equal. -/
def NamesApart (a b : Str) : Prop :=
  ∀ i j, a ++ Nat.toDigits 10 i ≠ b ++ Nat.toDigits 10 j

theorem dropWhile_digits : ∀ (ds : Str) (a : Str), (∀ c ∈ ds, c.isDigit = true) →
    (ds ++ a).dropWhile Char.isDigit = a.dropWhile Char.isDigit
  | [], a, _ => rfl
  | d :: ds, a, h => by
    rw [List.cons_append, List.dropWhile_cons_of_pos (h d (by simp))]
    exact dropWhile_digits ds a (fun c hc => h c (by simp [hc]))

/-- Different names that do not end with a digit are apart. -/
theorem namesApart_of_no_digit {a b : Str} (h : a ≠ b)
    (ha : ∀ c ∈ a.getLast?, c.isDigit = false) (hb : ∀ c ∈ b.getLast?, c.isDigit = false) :
    NamesApart a b := by
  have key : ∀ x : Str, (∀ c ∈ x.getLast?, c.isDigit = false) → ∀ i,
      ((x ++ Nat.toDigits 10 i).reverse.dropWhile Char.isDigit).reverse = x := by
    intro x hx i
    rw [List.reverse_append, dropWhile_digits _ _ (by
      intro c hc; exact digit_mem (by simpa using hc))]
    cases hr : x.reverse with
    | nil => have : x = [] := by simpa using hr
             subst this; rfl
    | cons c cs =>
      have hl : x.getLast? = some c := by
        rw [List.getLast?_eq_head?_reverse, hr]; rfl
      rw [List.dropWhile_cons_of_neg (by simp [hx c hl]), ← hr, List.reverse_reverse]
  intro i j e
  apply h
  rw [← key a ha i, e, key b hb j]

/-- A reference keeps its name. -/
theorem C81_names_stable (C : Nat → Cls) (m : Model) (noneC fuel : Nat)
    (reqs : List (Str × PyT)) (ns : List Str) (rv : RefMap)
    (h : nameAll C m noneC fuel [] reqs = .ok (ns, rv))
    (p q) (hp : p ∈ reqs.zip ns) (hq : q ∈ reqs.zip ns) (e : p.1.1 = q.1.1) : p.2 = q.2 := by
  obtain ⟨h1, _, h2⟩ := nameAll_spec reqs h ⟨by simp, by simp, by simp⟩
  obtain ⟨t, ht⟩ := h2 p hp
  obtain ⟨u, hu⟩ := h2 q hq
  rcases pairwise_mem h1.keys ht hu with h | h | h
  · injection h with _ h; injection h
  · exact absurd e h
  · exact absurd e.symm h

/-- Every reference gets a name. -/
theorem C81_all_named (C : Nat → Cls) (m : Model) (noneC fuel : Nat) :
    ∀ (reqs : List (Str × PyT)) (rv rv' : RefMap) (ns : List Str),
    nameAll C m noneC fuel rv reqs = .ok (ns, rv') → ns.length = reqs.length
  | [], rv, rv', ns, h => by
    simp only [nameAll] at h; injection h with h; injection h with h _; subst h; rfl
  | r :: reqs, rv, rv', ns, h => by
    obtain ⟨v, t⟩ := r
    simp only [nameAll] at h
    split at h
    · exact absurd h (by simp)
    · split at h
      · exact absurd h (by simp)
      · rename_i h2
        injection h with h
        injection h with e1 _
        subst e1
        simp [C81_all_named C m noneC fuel reqs _ _ _ h2]

/-- References with different values get different names if the names of the
types in use are apart, and references of unknown type are used with one
declared type only. -/
theorem C81_names_distinct_partial (C : Nat → Cls) (m : Model) (noneC fuel : Nat)
    (reqs : List (Str × PyT)) (ns : List Str) (rv : RefMap)
    (h : nameAll C m noneC fuel [] reqs = .ok (ns, rv))
    (hsame : ∀ x ∈ rv, ∀ y ∈ rv, x.2.1.head? = some '?' → y.2.1.head? = some '?' → x.2.2 = y.2.2)
    (hq : ∀ x ∈ rv, ∀ a, typeName C x.2.2 = .ok a → a ≠ [] ∧ a.head? ≠ some '?')
    (hapart : ∀ x ∈ rv, ∀ y ∈ rv, ∀ a b, typeName C x.2.2 = .ok a → typeName C y.2.2 = .ok b →
      x.2.2 ≠ y.2.2 → NamesApart a b)
    (p q) (hp : p ∈ reqs.zip ns) (hq' : q ∈ reqs.zip ns) (hne : p.1.1 ≠ q.1.1) (e : p.2 = q.2) :
    p.2 = "None".toList := by
  obtain ⟨h1, _, h2⟩ := nameAll_spec reqs h ⟨by simp, by simp, by simp⟩
  obtain ⟨t, ht⟩ := h2 p hp
  obtain ⟨u, hu⟩ := h2 q hq'
  have same : t = u → p.2 = "None".toList := by
    intro htu
    subst htu
    rcases pairwise_mem h1.pairs ht hu with h | h | h
    · injection h with h _; exact absurd h hne
    · exact h (by simp [e])
    · exact e.trans (h (by simp [e]))
  have quest : ∀ i, ('?' :: Nat.toDigits 10 i).head? = some '?' := fun _ => rfl
  have typed : ∀ a i, a ≠ [] → a.head? ≠ some '?' → (a ++ Nat.toDigits 10 i).head? ≠ some '?' := by
    intro a i ha hh
    cases a with
    | nil => exact absurd rfl ha
    | cons c cs => exact hh
  rcases h1.form _ ht with f | ⟨i, f⟩ | ⟨a, i, fa, f⟩
  · exact f
  · simp only at f
    rcases h1.form _ hu with g | ⟨j, g⟩ | ⟨b, j, gb, g⟩
    · exact e.trans g
    · exact same (hsame _ ht _ hu (by simp [f]) (by simp only at g; simp [g]))
    · simp only at g
      have := typed b j (hq _ hu b gb).1 (hq _ hu b gb).2
      rw [← g, ← e, f] at this
      exact absurd rfl this
  · simp only at f
    rcases h1.form _ hu with g | ⟨j, g⟩ | ⟨b, j, gb, g⟩
    · exact e.trans g
    · simp only at g
      have := typed a i (hq _ ht a fa).1 (hq _ ht a fa).2
      rw [← f, e, g] at this
      exact absurd rfl this
    · by_cases htu : t = u
      · exact same htu
      · simp only at g
        have := hapart _ ht _ hu a b fa gb htu i j
        exact absurd (f.symm.trans (e.trans g)) this

/-- Objects of classes `A` and `B` and an unknown object. -/
example : nameAll exC (extractModel exM) 3 5 []
    [("r0".toList, .cls 0), ("r5".toList, .cls 1), ("r0".toList, .cls 0), ("r6".toList, .cls 1)]
    = .ok (["A0".toList, "?0".toList, "A0".toList, "?1".toList],
      [("r0".toList, ("A0".toList, .cls 0)), ("r5".toList, ("?0".toList, .cls 1)),
       ("r6".toList, ("?1".toList, .cls 1))]) := by decide +kernel

example : NamesApart "A".toList "B".toList :=
  namesApart_of_no_digit (by decide +kernel) (by decide +kernel) (by decide +kernel)

/-! ## C82: terms -/

/-- The claim: a term with a value in the solver's model is evaluated to this
value. -/
def C82_evaluation : Prop :=
  ∀ (M : TModel), M.Good → ∀ t v, Den M t v → evalTerm (extractModel M) t = .ok v.show

/-- A model of a function with a value for `-5`. -/
def exF : TModel :=
  [("f".toList, .func [([numeral (-5)], .atom "7".toList)] (.atom "0".toList)),
   ("s".toList, .const (.app "$Snap.combine".toList
      (.app "$Snap.combine".toList (.atom "a".toList) [.atom "b".toList]) [.atom "c".toList]))]

theorem exF_good : exF.Good := by
  refine ⟨?_, by decide +kernel⟩
  intro e he
  simp only [exF, List.mem_cons, List.not_mem_nil, or_false] at he
  rcases he with rfl | rfl
  · refine ⟨?_, ?_, by simp⟩
    · simp only [SExp.Good]; exact ⟨by decide +kernel, by decide +kernel⟩
    · intro e he
      simp only [List.mem_cons, List.not_mem_nil, or_false] at he
      subst he
      refine ⟨?_, ?_⟩
      · simp only [AllGood]; exact ⟨numeral_good _, trivial⟩
      · simp only [SExp.Good]; exact ⟨by decide +kernel, by decide +kernel⟩
  · show SExp.Good _
    simp only [SExp.Good, AllGood]
    exact ⟨combine_sym, ⟨combine_sym, ⟨by decide +kernel, by decide +kernel⟩,
      ⟨by decide +kernel, by decide +kernel⟩, trivial⟩, ⟨by decide +kernel, by decide +kernel⟩, trivial⟩

/-- Negative literals are printed as `-5` but are `(- 5)` in the model, so
applications to them are not found, and the default is shown instead. -/
theorem C82_evaluation_fails : ¬ C82_evaluation := by
  intro h
  have hd : Den exF (.app "f".toList [.int (-5)]) (.atom "7".toList) := by
    refine .app (g := "f".toList)
      (e := .func [([numeral (-5)], .atom "7".toList)] (.atom "0".toList))
      (vs := [numeral (-5)]) (by decide +kernel) (.plain (e := .func
        [([numeral (-5)], .atom "7".toList)] (.atom "0".toList)) ?_ ⟨by simp [exF]⟩)
      ⟨by simp [exF]⟩ (.cons .int .nil) (.entry (by simp))
    rintro e ⟨he⟩
    simp only [exF, List.mem_cons, List.not_mem_nil, or_false, Prod.mk.injEq] at he
    rcases he with ⟨he, _⟩ | ⟨he, _⟩ <;> exact absurd he (by decide +kernel)
  have h1 := h exF exF_good _ _ hd
  have h2 : evalTerm (extractModel exF) (.app "f".toList [.int (-5)]) = .ok "0".toList := by
    decide +kernel
  rw [h2] at h1
  injection h1 with h1
  exact absurd h1 (by decide +kernel)

/-- Terms without negative literals are evaluated as the model says. -/
theorem C82_evaluation_partial (M : TModel) (hM : M.Good) (t : Term) (v : SExp)
    (h : Den M t v) (hn : t.NoNeg) : evalTerm (extractModel M) t = .ok v.show :=
  (eval_den hM h hn).1

/-- The parts of an application are found in its text. -/
theorem C82_parts (f : Str) (x : SExp) (xs : List SExp) (h : (SExp.app f x xs).Good) :
    getParts (SExp.app f x xs).show = .ok (f :: x.show :: xs.map SExp.show) :=
  getParts_show f x xs h

/-- Different values have different texts. -/
theorem C82_text_injective (x y : SExp) (hx : x.Good) (hy : y.Good) (h : x.show = y.show) :
    x = y :=
  show_inj x y hx hy h

/-- String literals are shown with their characters, between quotes. -/
theorem C82_strings (m : Model) (a b t : Term) (s : Str) (h : Spells t s) :
    evalTerm m (.app "str___create__".toList [a, b, t]) = .ok ('"' :: s ++ ['"']) := by
  have : "str___create__".toList ++ "%limited".toList = "str___create__%limited".toList :=
    create_split.symm
  rw [evalTerm, if_pos this, evalThird, eval_spells m h]

example : Den exF (.second (.first (.var "s".toList))) (.atom "b".toList) :=
  .second (x := .atom "a".toList) (.first (y := .atom "c".toList) (.var ⟨by simp [exF]⟩))

example : evalTerm (extractModel exF) (.second (.first (.var "s".toList))) = .ok "b".toList := by
  decide +kernel

example : Spells (.seqAppend (.seqSingle (.int 104)) (.seqAppend (.seqSingle (.int 105)) .seqNil))
    "hi".toList :=
  .append (.single (c := 'h')) (.append (.single (c := 'i')) .nil)

/-- The claim: evaluating the value of a variable yields a value or reports
that there is none. -/
def C82_no_internal_error : Prop :=
  ∀ (M : TModel), M.Good → ∀ t, (∃ v, evalTerm (extractModel M) t = .ok v) ∨
    evalTerm (extractModel M) t = .error .noFit

/-- Terms of other kinds, e.g. sums, raise an exception that nobody catches, and
so do components of snapshots that are no pairs. -/
theorem C82_no_internal_error_fails : ¬ C82_no_internal_error := by
  intro h
  rcases h exF exF_good .other with ⟨v, h⟩ | h
  · have : evalTerm (extractModel exF) .other = .error .exception := rfl
    rw [this] at h; cases h
  · have : evalTerm (extractModel exF) .other = .error .exception := rfl
    rw [this] at h; cases h

example : evalTerm (extractModel exF) (.first .unit) = .error .exception := by decide +kernel

/-! ## C83: numbers -/

/-- Numbers are read as the solver writes them. -/
theorem C83_numerals (n : Int) : parseInt (numeral n).show = .ok (.int n) :=
  parseInt_numeral n

/-- What the model says about a reference that is an integer: its type is the
type of integers, which is not the type of booleans, and its value is `n`. -/
structure IsInt (M : TModel) (v T : SExp) (n : Int) : Prop where
  good : v.Good
  typ : ∃ e, M.Has "typeof<PyType>".toList e ∧ e.Maps [v] T
  int : M.Has "int<PyType>".toList (.const T)
  bool : ∀ e, M.Has "bool<PyType>".toList e → ∃ B, e = .const B ∧ B ≠ T
  val : ∃ e, M.Has "int___unbox__%limited".toList e ∧
    e.Maps [.atom "$Snap.unit".toList, v] (numeral n)

/-- The claim: integers are shown with their values. -/
def C83_integers : Prop :=
  ∀ (M : TModel), M.Good → ∀ v T n, IsInt M v T n →
    convertInt (extractModel M) v.show = .ok (.int n)

/-- A model with an integer. -/
def exI (dflt : SExp) : TModel :=
  [("int<PyType>".toList, .const (.atom "T0".toList)),
   ("bool<PyType>".toList, .const (.atom "T1".toList)),
   ("typeof<PyType>".toList, .func [] (.atom "T0".toList)),
   ("int___unbox__%limited".toList, .func [] (numeral (-3))),
   ("bool___unbox__%limited".toList, .func [] (.atom "true".toList)),
   ("issubtype<Bool>".toList, .func [] dflt)]

theorem exI_good {d : SExp} (hd : d.Good) : (exI d).Good := by
  refine ⟨?_, by simp only [exI, List.map]; decide +kernel⟩
  intro e he
  simp only [exI, List.mem_cons, List.not_mem_nil, or_false] at he
  rcases he with rfl | rfl | rfl | rfl | rfl | rfl
  · show SExp.Good _; simp only [SExp.Good]; exact ⟨by decide +kernel, by decide +kernel⟩
  · show SExp.Good _; simp only [SExp.Good]; exact ⟨by decide +kernel, by decide +kernel⟩
  · refine ⟨?_, by simp, by simp⟩; simp only [SExp.Good]; exact ⟨by decide +kernel, by decide +kernel⟩
  · exact ⟨numeral_good _, by simp, by simp⟩
  · refine ⟨?_, by simp, by simp⟩; simp only [SExp.Good]; exact ⟨by decide +kernel, by decide +kernel⟩
  · exact ⟨hd, by simp, by simp⟩

theorem exI_int (d : SExp) : IsInt (exI d) (.atom "r".toList) (.atom "T0".toList) (-3) := by
  refine ⟨?_, ⟨_, ⟨by simp [exI]; rfl⟩, .default (by simp)⟩, ⟨by simp [exI]⟩, ?_,
    ⟨_, ⟨by simp [exI]; rfl⟩, .default (by simp)⟩⟩
  · simp only [SExp.Good]; exact ⟨by decide +kernel, by decide +kernel⟩
  · rintro e ⟨he⟩
    simp only [exI, List.mem_cons, List.not_mem_nil, or_false, Prod.mk.injEq] at he
    rcases he with ⟨he, _⟩ | ⟨_, he⟩ | ⟨he, _⟩ | ⟨he, _⟩ | ⟨he, _⟩ | ⟨he, _⟩
    case inr.inl => exact ⟨_, he, by simp⟩
    all_goals exact absurd he (by decide +kernel)

/-- If the model leaves open whether integers are booleans, the answer is a
question mark, which counts as true, and the integer is shown as a boolean. -/
theorem C83_integers_fails : ¬ C83_integers := by
  intro h
  have hd : (SExp.atom "#unspecified".toList).Good := by
    simp only [SExp.Good]; exact ⟨by decide +kernel, by decide +kernel⟩
  have h1 := h _ (exI_good hd) _ _ _ (exI_int _)
  have h2 : convertInt (extractModel (exI (.atom "#unspecified".toList))) (SExp.atom "r".toList).show
      = .ok (.bool true) := by decide +kernel
  rw [h2] at h1
  injection h1 with h1
  cases h1

/-- Integers are shown with their values if the model says that they are no
booleans. -/
theorem C83_integers_partial (M : TModel) (hM : M.Good) (v T : SExp) (n : Int)
    (h : IsInt M v T n)
    (hs : ∀ B, M.Has "bool<PyType>".toList (.const B) →
      ∃ e, M.Has "issubtype<Bool>".toList e ∧ e.Maps [T, B] (.atom "false".toList)) :
    convertInt (extractModel M) v.show = .ok (.int n) := by
  obtain ⟨et, ht1, ht2⟩ := h.typ
  obtain ⟨ev, hv1, hv2⟩ := h.val
  have hT : T.Good := maps_good (has_good hM ht1) ht2
  have hto := typeOf_get hM h.good ht1 ht2
  have hu : (SExp.atom "$Snap.unit".toList).Good := by
    simp only [SExp.Good]; exact ⟨by decide +kernel, by decide +kernel⟩
  have hb : refHasType (extractModel M) v.show "bool".toList = .ok (.bool false) := by
    rw [refHasType, hto]
    simp only [isTypeStr]
    by_cases hk : ∃ e, M.Has "bool<PyType>".toList e
    · obtain ⟨e, he⟩ := hk
      obtain ⟨B, rfl, hBT⟩ := h.bool e he
      have hk' : M.Has ("bool".toList ++ "<PyType>".toList) (.const B) := by
        have : "bool".toList ++ "<PyType>".toList = "bool<PyType>".toList := by decide +kernel
        rw [this]; exact he
      obtain ⟨e, h1, h2⟩ := hs B he
      rw [typeValStr_get hM hk', isTypeOf_sub hM hT (has_good hM he) h1 h2 hBT, parseBool_false]
    · rw [typeValStr_none]
      · rfl
      · intro e he
        apply hk
        refine ⟨e, ?_⟩
        have : "bool".toList ++ "<PyType>".toList = "bool<PyType>".toList := by decide +kernel
        rw [this] at he; exact he
  have hi : refHasType (extractModel M) v.show "int".toList = .ok (.bool true) := by
    rw [refHasType, hto]
    simp only [isTypeStr]
    have hk' : M.Has ("int".toList ++ "<PyType>".toList) (.const T) := by
      have : "int".toList ++ "<PyType>".toList = "int<PyType>".toList := by decide +kernel
      rw [this]; exact h.int
    rw [typeValStr_get hM hk', isTypeOf_same]
  have hval : getFuncValue (extractModel M) "int___unbox__%limited".toList
      ["$Snap.unit".toList, v.show] = .ok (numeral n).show :=
    maps_get hM hv1 (xs := [.atom "$Snap.unit".toList, v])
      (by simp only [AllGood]; exact ⟨hu, h.good, trivial⟩) hv2
  rw [convertInt, hb]
  show (match refHasType (extractModel M) v.show "int".toList with
    | .error e => Except.error e
    | .ok b => if b.truthy then
        match getFuncValue (extractModel M) "int___unbox__%limited".toList
          ["$Snap.unit".toList, v.show] with
        | .error e => .error e
        | .ok s => parseInt s
      else .error .noFit) = _
  rw [hi]
  simp only [Shown.truthy, if_true]
  rw [hval]
  exact parseInt_numeral n

example : convertInt (extractModel (exI (.atom "false".toList))) "r".toList = .ok (.int (-3)) := by
  decide +kernel

/-- Booleans are shown with their values, also where integers are expected. -/
theorem C83_booleans (M : TModel) (hM : M.Good) (v T : SExp) (b : Bool) (hv : v.Good)
    (typ : ∃ e, M.Has "typeof<PyType>".toList e ∧ e.Maps [v] T)
    (bool : M.Has "bool<PyType>".toList (.const T))
    (val : ∃ e, M.Has "bool___unbox__%limited".toList e ∧
      e.Maps [.atom "$Snap.unit".toList, v] (.atom (if b then "true".toList else "false".toList))) :
    convertBool (extractModel M) v.show = .ok (.bool b) ∧
    convertInt (extractModel M) v.show = .ok (.bool b) := by
  obtain ⟨et, ht1, ht2⟩ := typ
  obtain ⟨ev, hv1, hv2⟩ := val
  have hto := typeOf_get hM hv ht1 ht2
  have hu : (SExp.atom "$Snap.unit".toList).Good := by
    simp only [SExp.Good]; exact ⟨by decide +kernel, by decide +kernel⟩
  have hb : refHasType (extractModel M) v.show "bool".toList = .ok (.bool true) := by
    rw [refHasType, hto]
    simp only [isTypeStr]
    have hk' : M.Has ("bool".toList ++ "<PyType>".toList) (.const T) := by
      have : "bool".toList ++ "<PyType>".toList = "bool<PyType>".toList := by decide +kernel
      rw [this]; exact bool
    rw [typeValStr_get hM hk', isTypeOf_same]
  have hval : getFuncValue (extractModel M) "bool___unbox__%limited".toList
      ["$Snap.unit".toList, v.show]
      = .ok (SExp.atom (if b then "true".toList else "false".toList)).show :=
    maps_get hM hv1 (xs := [.atom "$Snap.unit".toList, v])
      (by simp only [AllGood]; exact ⟨hu, hv, trivial⟩) hv2
  have h1 : convertBool (extractModel M) v.show = .ok (.bool b) := by
    rw [convertBool, hb]
    simp only [Shown.truthy, if_true]
    rw [hval]
    cases b
    · exact congrArg Except.ok parseBool_false
    · exact congrArg Except.ok parseBool_true
  refine ⟨h1, ?_⟩
  rw [convertInt, hb]
  simp only [Shown.truthy, if_true]
  exact h1

example : convertInt (extractModel
    [("bool<PyType>".toList, .const (.atom "T1".toList)),
     ("typeof<PyType>".toList, .func [] (.atom "T1".toList)),
     ("bool___unbox__%limited".toList, .func [] (.atom "false".toList))]) "r".toList
    = .ok (.bool false) := by decide +kernel

/-! ## C84: classes -/

/-- Reflexive and transitive subclasses. -/
inductive Below (C : Nat → Cls) : Nat → Nat → Prop where
  | refl {c} : Below C c c
  | step {c s d} : s ∈ (C d).subs → Below C c s → Below C c d

/-- What the model knows about the type `T c` of an object of class `c`, a
subclass of `top`; all classes below `top` are ordinary classes without type
parameters. -/
structure KnowsType (C : Nat → Cls) (M : TModel) (T : Nat → SExp) (c top : Nat) : Prop where
  good : M.Good
  inst : Below C c top
  acyclic : ∃ rank : Nat → Nat, ∀ d, ∀ s ∈ (C d).subs, rank s < rank d
  plain : ∀ d, Below C d top → (C d).tvars = [] ∧ (C d).name ≠ "tuple".toList ∧
    "__prim__".toList.isPrefixOf (C d).name = false
  types : ∀ d, Below C d top → M.Has (tkey C d) (.const (T d))
  inj : ∀ d, Below C d top → T d = T c → d = c
  sub : ∀ d, Below C d top → d ≠ c → Below C c d →
    ∃ e, M.Has "issubtype<Bool>".toList e ∧ e.Maps [T c, T d] (.atom "true".toList)
  nosub : ∀ d, Below C d top → ¬ Below C c d →
    ∃ e, M.Has "issubtype<Bool>".toList e ∧ e.Maps [T c, T d] (.atom "false".toList)
  basic : ∃ tb d, M.Has "get_basic<PyType>".toList (.func tb d) ∧
    ∀ v, ([T c], v) ∈ tb → v = T c

/-- The claim: an object is shown with its class. -/
def C84_exact_class : Prop :=
  ∀ (C : Nat → Cls) (M : TModel) (T : Nat → SExp) (c top noneC : Nat), KnowsType C M T c top →
    ∃ N, ∀ fuel, N ≤ fuel →
      preciseType C (extractModel M) noneC fuel (T c).show (.cls top) = .ok (.cls c)

theorem Below.trans {C : Nat → Cls} {a b c : Nat} (h1 : Below C a b) (h2 : Below C b c) :
    Below C a c := by
  induction h2 with
  | refl => exact h1
  | step hs _ ih => exact .step hs ih

theorem Below.rank_le {C : Nat → Cls} {rank : Nat → Nat}
    (hr : ∀ d, ∀ s ∈ (C d).subs, rank s < rank d) {a b : Nat} (h : Below C a b) :
    rank a ≤ rank b := by
  induction h with
  | refl => exact Nat.le_refl _
  | step hs _ ih => exact Nat.le_of_lt (Nat.lt_of_le_of_lt ih (hr _ _ hs))

/-- What `is_type` answers for a known type. -/
theorem knows_isType {C : Nat → Cls} {M : TModel} {T : Nat → SExp} {c top : Nat}
    (K : KnowsType C M T c top) {d : Nat} (hd : Below C d top) :
    (Below C c d → isType C (extractModel M) (T c).show (.cls d) = .ok (.bool true)) ∧
    (¬ Below C c d → isType C (extractModel M) (T c).show (.cls d) = .ok (.bool false)) := by
  obtain ⟨p1, p2, p3⟩ := K.plain d hd
  have hTc : (T c).Good := has_good K.good (K.types c K.inst)
  have hTd : (T d).Good := has_good K.good (K.types d hd)
  have hv : typeVal C (extractModel M) (.cls d) = .ok (T d).show := by
    rw [typeVal, has_get K.good (K.types d hd)]
    rfl
  have hu : isType C (extractModel M) (T c).show (.cls d)
      = isTypeOf (extractModel M) (T c).show (.ok (T d).show) := by
    rw [isType_plain p1 p2 p3, hv]
  rw [hu]
  by_cases hdc : d = c
  · subst hdc
    exact ⟨fun _ => isTypeOf_same _ _, fun h => absurd .refl h⟩
  · have hne : T d ≠ T c := fun e => hdc (K.inj d hd e)
    refine ⟨fun h => ?_, fun h => ?_⟩
    · obtain ⟨e, h1, h2⟩ := K.sub d hd hdc h
      rw [isTypeOf_sub K.good hTc hTd h1 h2 hne, parseBool_true]
    · obtain ⟨e, h1, h2⟩ := K.nosub d hd h
      rw [isTypeOf_sub K.good hTc hTd h1 h2 hne, parseBool_false]

/-- The first subclass that the object belongs to is found. -/
theorem knows_firstSub {C : Nat → Cls} {M : TModel} {T : Nat → SExp} {c top : Nat}
    (K : KnowsType C M T c top) : ∀ (ss : List Nat), (∀ s ∈ ss, Below C s top) →
    (∃ s ∈ ss, Below C c s ∧ firstSub C (extractModel M) (T c).show ss = .ok (some s)) ∨
    ((∀ s ∈ ss, ¬ Below C c s) ∧ firstSub C (extractModel M) (T c).show ss = .ok none)
  | [], _ => .inr ⟨by simp, rfl⟩
  | s :: ss, h => by
    obtain ⟨k1, k2⟩ := knows_isType K (h s (by simp))
    by_cases hs : Below C c s
    · refine .inl ⟨s, by simp, hs, ?_⟩
      rw [firstSub, k1 hs]
      rfl
    · have : firstSub C (extractModel M) (T c).show (s :: ss)
          = firstSub C (extractModel M) (T c).show ss := by
        rw [firstSub, k2 hs]
        rfl
      rw [this]
      rcases knows_firstSub K ss (fun x hx => h x (by simp [hx])) with ⟨x, h1, h2, h3⟩ | ⟨h1, h2⟩
      · exact .inl ⟨x, by simp [h1], h2, h3⟩
      · refine .inr ⟨?_, h2⟩
        intro x hx
        rcases List.mem_cons.1 hx with hx | hx
        · rw [hx]; exact hs
        · exact h1 x hx

/-- An object is shown with its class if the model does not mention the basic
type of its type, or if its class is the declared one. -/
theorem C84_exact_class_partial (C : Nat → Cls) (M : TModel) (T : Nat → SExp)
    (c top noneC : Nat) (K : KnowsType C M T c top)
    (hb : c = top ∨ ∃ tb d, M.Has "get_basic<PyType>".toList (.func tb d) ∧
      ∀ v, ([T c], v) ∉ tb) :
    ∃ N, ∀ fuel, N ≤ fuel →
      preciseType C (extractModel M) noneC fuel (T c).show (.cls top) = .ok (.cls c) := by
  obtain ⟨rank, hrank⟩ := K.acyclic
  have hTc : (T c).Good := has_good K.good (K.types c K.inst)
  have main : ∀ n d, rank d = n → Below C d top → Below C c d →
      (d = c ∨ ∃ tb d, M.Has "get_basic<PyType>".toList (.func tb d) ∧ ∀ v, ([T c], v) ∉ tb) →
      ∀ fuel, n + 2 ≤ fuel →
      preciseType C (extractModel M) noneC fuel (T c).show (.cls d) = .ok (.cls c) := by
    intro n
    induction n using Nat.strongRecOn with
    | _ n ih =>
      intro d hn hdt hcd hb fuel hf
      obtain ⟨fuel, rfl⟩ : ∃ k, fuel = k + 1 := ⟨fuel - 1, by omega⟩
      obtain ⟨p1, p2, p3⟩ := K.plain d hdt
      have hbasic : basicType C (extractModel M) fuel (T c).show d = .ok d := by
        rcases hb with hb | ⟨tb, dv, h1, h2⟩
        · subst hb
          obtain ⟨tb, dv, h1, h2⟩ := K.basic
          have hg := has_good K.good h1
          by_cases hx : ∃ v, ([T d], v) ∈ tb
          · obtain ⟨v, hv⟩ := hx
            have hvT := h2 v hv
            subst hvT
            have hget := dictGet_foldl (fun e : List SExp × SExp => e.1.map SExp.show)
              (fun e => e.2.show) tb [] (nodup_map_show hg.2.1 hg.2.2) _ hv
            simp only [List.map_cons, List.map_nil] at hget
            obtain ⟨fuel, rfl⟩ : ∃ k, fuel = k + 1 := ⟨fuel - 1, by omega⟩
            rw [basicType_same (has_get K.good h1) hget]
            exact basicGo_found p1 (has_get K.good (K.types d hdt)) rfl
          · have hget := dictGet_foldl_not (fun e : List SExp × SExp => e.1.map SExp.show)
              (fun e => e.2.show) tb [] [(T d).show] (by
                intro hm
                obtain ⟨b, hb, hbe⟩ := List.mem_map.1 hm
                have hAll : AllGood [T d] := by simp only [AllGood]; exact ⟨hTc, trivial⟩
                have := show_injs b.1 [T d] (hg.2.1 b hb).1 hAll (by simpa using hbe)
                exact hx ⟨b.2, by rw [← this]; exact hb⟩)
            exact basicType_none (has_get K.good h1) hget
        · have hg := has_good K.good h1
          have hget := dictGet_foldl_not (fun e : List SExp × SExp => e.1.map SExp.show)
            (fun e => e.2.show) tb [] [(T c).show] (by
              intro hm
              obtain ⟨b, hb, hbe⟩ := List.mem_map.1 hm
              have hAll : AllGood [T c] := by simp only [AllGood]; exact ⟨hTc, trivial⟩
              have := show_injs b.1 [T c] (hg.2.1 b hb).1 hAll (by simpa using hbe)
              exact h2 b.2 (by rw [← this]; exact hb))
          exact basicType_none (has_get K.good h1) hget
      have hit := (knows_isType K hdt).1 hcd
      have hstep : preciseType C (extractModel M) noneC (fuel + 1) (T c).show (.cls d) =
          match firstSub C (extractModel M) (T c).show (C d).subs with
          | .error e => .error e
          | .ok (some s) => preciseType C (extractModel M) noneC fuel (T c).show (.cls s)
          | .ok none => .ok (.cls d) := preciseType_step p1 p2 hit hbasic
      rw [hstep]
      have hsubs : ∀ s ∈ (C d).subs, Below C s top := fun s hs => (Below.step hs .refl).trans hdt
      rcases knows_firstSub K (C d).subs hsubs with ⟨s, hs, hcs, h3⟩ | ⟨h1, h2⟩
      · rw [h3]
        have hlt := hrank d s hs
        have hdc : d ≠ c := by
          intro e
          subst e
          have := hcs.rank_le hrank
          omega
        exact ih (rank s) (by omega) s rfl (hsubs s hs) hcs (.inr (hb.resolve_left hdc)) fuel (by omega)
      · rw [h2]
        cases hcd with
        | refl => rfl
        | step hs h => exact absurd h (h1 _ hs)
  refine ⟨rank top + 2, fun fuel hf => main _ top rfl .refl K.inst (hb.imp Eq.symm id) fuel hf⟩

/-- A class `A` with a subclass `B`. -/
def exC2 : Nat → Cls
  | 0 => ⟨"A".toList, "A".toList, [], [1]⟩
  | 1 => ⟨"B".toList, "B".toList, [], []⟩
  | _ => ⟨"NoneType".toList, "NoneType".toList, [], []⟩

/-- The types of these classes. -/
def exT : Nat → SExp
  | 0 => .atom "T0".toList
  | _ => .atom "T1".toList

/-- A model of their types; `basic` are the known basic types. -/
def exM2 (basic : List (List SExp × SExp)) : TModel :=
  [("A<PyType>".toList, .const (.atom "T0".toList)),
   ("B<PyType>".toList, .const (.atom "T1".toList)),
   ("get_basic<PyType>".toList, .func basic (.atom "T0".toList)),
   ("issubtype<Bool>".toList, .func
     [([.atom "T0".toList, .atom "T1".toList], .atom "false".toList)] (.atom "true".toList))]

theorem exM2_good {tb : List (List SExp × SExp)} (h1 : ∀ e ∈ tb, AllGood e.1 ∧ e.2.Good)
    (h2 : (tb.map Prod.fst).Nodup) : (exM2 tb).Good := by
  refine ⟨?_, by simp only [exM2, List.map]; decide +kernel⟩
  intro e he
  simp only [exM2, List.mem_cons, List.not_mem_nil, or_false] at he
  have g : ∀ a : Str, GoodSym a → (SExp.atom a).Good := fun a h => by simpa only [SExp.Good] using h
  rcases he with rfl | rfl | rfl | rfl
  · exact g _ ⟨by decide +kernel, by decide +kernel⟩
  · exact g _ ⟨by decide +kernel, by decide +kernel⟩
  · exact ⟨g _ ⟨by decide +kernel, by decide +kernel⟩, h1, h2⟩
  · refine ⟨g _ ⟨by decide +kernel, by decide +kernel⟩, ?_, by simp⟩
    intro e he
    simp only [List.mem_cons, List.not_mem_nil, or_false] at he
    subst he
    refine ⟨?_, g _ ⟨by decide +kernel, by decide +kernel⟩⟩
    simp only [AllGood]
    exact ⟨g _ ⟨by decide +kernel, by decide +kernel⟩, g _ ⟨by decide +kernel, by decide +kernel⟩, trivial⟩

theorem exC2_below {d : Nat} (h : Below exC2 d 0) : d = 0 ∨ d = 1 := by
  cases h with
  | refl => exact .inl rfl
  | step hs h =>
    simp [exC2] at hs
    subst hs
    cases h with
    | refl => exact .inr rfl
    | step hs _ => simp [exC2] at hs

theorem exC2_knows {tb : List (List SExp × SExp)} (h1 : ∀ e ∈ tb, AllGood e.1 ∧ e.2.Good)
    (h2 : (tb.map Prod.fst).Nodup)
    (h3 : ∀ v, ([SExp.atom "T1".toList], v) ∈ tb → v = .atom "T1".toList) :
    KnowsType exC2 (exM2 tb) exT 1 0 := by
  refine ⟨exM2_good h1 h2, .step (s := 1) (by simp [exC2]) .refl, ⟨fun d => if d = 0 then 1 else 0, ?_⟩,
    ?_, ?_, ?_, ?_, ?_, ?_⟩
  · intro d s hs
    match d with
    | 0 => simp [exC2] at hs; simp [hs]
    | 1 => simp [exC2] at hs
    | n + 2 => simp [exC2] at hs
  · intro d hd
    rcases exC2_below hd with rfl | rfl <;> exact ⟨rfl, by decide +kernel, by decide +kernel⟩
  · intro d hd
    rcases exC2_below hd with rfl | rfl
    · refine ⟨?_⟩
      have : tkey exC2 0 = "A<PyType>".toList := by decide +kernel
      rw [this]; simp [exM2, exT]
    · refine ⟨?_⟩
      have : tkey exC2 1 = "B<PyType>".toList := by decide +kernel
      rw [this]; simp [exM2, exT]
  · intro d hd e
    rcases exC2_below hd with rfl | rfl
    · simp only [exT, SExp.atom.injEq] at e
      exact absurd e (by decide +kernel)
    · rfl
  · intro d hd hne _
    rcases exC2_below hd with rfl | rfl
    · refine ⟨_, ⟨by simp [exM2]; rfl⟩, .default ?_⟩
      intro v hv
      simp [exT] at hv
    · exact absurd rfl hne
  · intro d hd hn
    rcases exC2_below hd with rfl | rfl
    · exact absurd (.step (s := 1) (by simp [exC2]) .refl) hn
    · exact absurd .refl hn
  · exact ⟨tb, _, ⟨by simp [exM2]; rfl⟩, h3⟩

/-- If the model knows the basic type of the object's type, the object is shown
with its declared class. -/
theorem C84_exact_class_fails : ¬ C84_exact_class := by
  intro h
  have g : ∀ a : Str, GoodSym a → (SExp.atom a).Good := fun a h => by simpa only [SExp.Good] using h
  have K : KnowsType exC2 (exM2 [([.atom "T1".toList], .atom "T1".toList)]) exT 1 0 := by
    refine exC2_knows ?_ (by simp) ?_
    · intro e he
      simp only [List.mem_cons, List.not_mem_nil, or_false] at he
      subst he
      refine ⟨?_, g _ ⟨by decide +kernel, by decide +kernel⟩⟩
      simp only [AllGood]
      exact ⟨g _ ⟨by decide +kernel, by decide +kernel⟩, trivial⟩
    · intro v hv
      simpa using hv
  obtain ⟨N, hN⟩ := h exC2 _ exT 1 0 2 K
  have h1 := hN (N + 3) (by omega)
  have h2 : preciseType exC2 (extractModel (exM2 [([.atom "T1".toList], .atom "T1".toList)])) 2
      (N + 3) (exT 1).show (.cls 0) = .ok (.cls 0) := by
    have e1 : isType exC2 (extractModel (exM2 [([.atom "T1".toList], .atom "T1".toList)]))
      (exT 1).show (.cls 0) = .ok (.bool true) := by decide +kernel
    have e2 : basicType exC2 (extractModel (exM2 [([.atom "T1".toList], .atom "T1".toList)]))
      (N + 2) (exT 1).show 0 = .ok 1 := by
      have a1 : dictGet (extractModel (exM2 [([.atom "T1".toList], .atom "T1".toList)]))
        "get_basic<PyType>".toList
        = some (extractEntry (.func [([.atom "T1".toList], .atom "T1".toList)] (.atom "T0".toList))) :=
        has_get K.good ⟨by simp [exM2]⟩
      have a2 := has_get K.good (K.types 0 .refl)
      have a3 := has_get K.good (K.types 1 K.inst)
      have a4 : dictGet [([(exT 1).show], (exT 1).show)] [(exT 1).show] = some (exT 1).show := by
        decide +kernel
      rw [basicType_same a1 a4,
        basicGo_next rfl a2 (by decide +kernel)]
      exact basicGo_found rfl a3 rfl
    rw [preciseType_step rfl (by decide +kernel) e1 e2]
    rfl
  rw [h2] at h1
  injection h1 with h1
  injection h1 with h1
  cases h1

example : preciseType exC2 (extractModel (exM2 [])) 2 5 "T1".toList (.cls 0) = .ok (.cls 1) := by
  decide +kernel

example : KnowsType exC2 (exM2 []) exT 1 0 := exC2_knows (by simp) (by simp) (by simp)

/-- The claim: an object is shown with a class only if the model says that its
type is a subtype of this class. -/
def C84_class_justified : Prop :=
  ∀ (C : Nat → Cls) (M : TModel) (noneC fuel : Nat) (v : SExp) (t : PyT) (r : Nat),
    M.Good → v.Good → (C r).tvars = [] → (C r).name ≠ "tuple".toList →
    (∀ e, M.Has (tkey C r) e → ∃ T, e = .const T) →
    preciseType C (extractModel M) noneC fuel v.show t = .ok (.cls r) →
    ∃ T, M.Has (tkey C r) (.const T) ∧ (T = v ∨
      ∃ e, M.Has "issubtype<Bool>".toList e ∧ e.Maps [v, T] (.atom "true".toList))

/-- A model that does not say whether an object of class `A` is one of class
`B`. -/
def exM3 : TModel :=
  [("A<PyType>".toList, .const (.atom "T0".toList)),
   ("B<PyType>".toList, .const (.atom "T1".toList)),
   ("get_basic<PyType>".toList, .func [] (.atom "T0".toList)),
   ("issubtype<Bool>".toList, .func [] (.atom "#unspecified".toList))]

/-- If the model leaves open whether an object belongs to a subclass, it is
shown with that subclass. -/
theorem C84_class_justified_fails : ¬ C84_class_justified := by
  intro h
  have g : ∀ a : Str, GoodSym a → (SExp.atom a).Good := fun a h => by simpa only [SExp.Good] using h
  have hM : exM3.Good := by
    refine ⟨?_, by simp only [exM3, List.map]; decide +kernel⟩
    intro e he
    simp only [exM3, List.mem_cons, List.not_mem_nil, or_false] at he
    rcases he with rfl | rfl | rfl | rfl
    · exact g _ ⟨by decide +kernel, by decide +kernel⟩
    · exact g _ ⟨by decide +kernel, by decide +kernel⟩
    · exact ⟨g _ ⟨by decide +kernel, by decide +kernel⟩, by simp, by simp⟩
    · exact ⟨g _ ⟨by decide +kernel, by decide +kernel⟩, by simp, by simp⟩
  have hk : tkey exC2 1 = "B<PyType>".toList := by decide +kernel
  have hB : ∀ e, exM3.Has (tkey exC2 1) e → e = .const (.atom "T1".toList) := by
    rintro e ⟨he⟩
    rw [hk] at he
    simp only [exM3, List.mem_cons, List.not_mem_nil, or_false, Prod.mk.injEq] at he
    rcases he with ⟨he, _⟩ | ⟨_, he⟩ | ⟨he, _⟩ | ⟨he, _⟩
    case inr.inl => exact he
    all_goals exact absurd he (by decide +kernel)
  obtain ⟨T, h1, h2⟩ := h exC2 exM3 2 5 (.atom "T0".toList) (.cls 0) 1 hM
    (g _ ⟨by decide +kernel, by decide +kernel⟩) rfl (by decide +kernel)
    (fun e he => ⟨_, hB e he⟩) (by decide +kernel)
  have hT := hB _ h1
  injection hT with hT
  subst hT
  rcases h2 with h2 | ⟨e, ⟨he⟩, hm⟩
  · injection h2 with h2
    exact absurd h2 (by decide +kernel)
  · simp only [exM3, List.mem_cons, List.not_mem_nil, or_false, Prod.mk.injEq] at he
    rcases he with ⟨he, _⟩ | ⟨he, _⟩ | ⟨he, _⟩ | ⟨_, he⟩
    case inr.inr.inr =>
      subst he
      generalize hv : SExp.atom "true".toList = tv at hm
      cases hm with
      | entry h => cases h
      | default _ =>
        injection hv with hv
        exact absurd hv (by decide +kernel)
    all_goals exact absurd he (by decide +kernel)

/-- The class shown has been tested with `is_type`. -/
theorem precise_tested (C : Nat → Cls) (m : Model) (noneC : Nat) :
    ∀ (fuel : Nat) (v : Str) (t : PyT) (r : Nat), (C r).name ≠ "tuple".toList →
    preciseType C m noneC fuel v t = .ok (.cls r) →
    ∃ b, isType C m v (.cls r) = .ok b ∧ b.truthy = true := by
  intro fuel
  induction fuel with
  | zero => intro v t r _ h; simp [preciseType] at h
  | succ fuel ih =>
    intro v t r hr h
    rw [preciseType.eq_def] at h
    simp only at h
    by_cases ht : (C t.pcls).name = "tuple".toList
    · rw [if_pos ht] at h
      injection h with h
      subst h
      exact absurd ht hr
    · rw [if_neg ht] at h
      match hi : isType C m v (.cls t.pcls) with
      | .error e => rw [hi] at h; simp at h
      | .ok b =>
        rw [hi] at h
        simp only at h
        by_cases hb : b.truthy = true
        · simp only [hb, Bool.not_true, Bool.false_eq_true, if_false] at h
          match hbt : basicType C m fuel v t.pcls with
          | .error e => rw [hbt] at h; simp at h
          | .ok basic =>
            rw [hbt] at h
            simp only at h
            match hfs : firstSub C m v (C basic).subs with
            | .error e => rw [hfs] at h; simp at h
            | .ok (some s) =>
              rw [hfs] at h
              exact ih v (.cls s) r hr h
            | .ok none =>
              rw [hfs] at h
              simp only at h
              match t, hi with
              | .opt t', _ => exact ih v t' r hr h
              | .gen _ _, _ => simp at h
              | .cls d, hi =>
                simp only at h
                by_cases htv : (C basic).tvars.isEmpty = true
                · rw [if_pos htv] at h
                  injection h with h
                  injection h with h
                  subst h
                  exact ⟨b, hi, hb⟩
                · rw [if_neg htv] at h
                  split at h
                  · simp at h
                  · split at h <;> simp at h
        · simp only [hb, Bool.not_false, if_true] at h
          match t with
          | .cls _ => simp at h
          | .gen _ _ => simp at h
          | .opt t' =>
            simp only at h
            match hn : isType C m v (.cls noneC) with
            | .error e => rw [hn] at h; simp at h
            | .ok b' =>
              rw [hn] at h
              simp only at h
              by_cases hb' : b'.truthy = true
              · rw [if_pos hb'] at h
                injection h with h
                injection h with h
                subst h
                exact ⟨b', hn, hb'⟩
              · rw [if_neg hb'] at h
                simp at h

/-- An object is shown with a class only if the model says that its type is a
subtype of this class, provided that the model always answers this question. -/
theorem C84_class_justified_partial (C : Nat → Cls) (M : TModel) (noneC fuel : Nat) (v : SExp)
    (t : PyT) (r : Nat) (hM : M.Good) (hv : v.Good) (hr1 : (C r).tvars = [])
    (hr2 : (C r).name ≠ "tuple".toList)
    (hk : ∀ e, M.Has (tkey C r) e → ∃ T, e = .const T)
    (htwo : ∀ e, M.Has "issubtype<Bool>".toList e → (∃ tb d, e = .func tb d) ∧
      ∀ T w, e.Maps [v, T] w → w = .atom "true".toList ∨ w = .atom "false".toList)
    (h : preciseType C (extractModel M) noneC fuel v.show t = .ok (.cls r)) :
    ∃ T, M.Has (tkey C r) (.const T) ∧ (T = v ∨
      ∃ e, M.Has "issubtype<Bool>".toList e ∧ e.Maps [v, T] (.atom "true".toList)) := by
  obtain ⟨b, h1, h2⟩ := precise_tested C _ noneC fuel v.show t r hr2 h
  by_cases hp : "__prim__".toList.isPrefixOf (C r).name = true
  · rw [isType, if_pos (show "__prim__".toList.isPrefixOf (C (PyT.cls r).pcls).name = true from hp)] at h1
    injection h1 with h1; subst h1; cases h2
  · rw [isType_plain hr1 hr2 (Bool.eq_false_iff.2 hp)] at h1
    by_cases hex : ∃ e, M.Has (tkey C r) e
    · obtain ⟨e, he⟩ := hex
      obtain ⟨T, rfl⟩ := hk e he
      refine ⟨T, he, ?_⟩
      have htv : typeVal C (extractModel M) (.cls r) = .ok T.show := by
        rw [typeVal, has_get hM he]
        rfl
      rw [htv] at h1
      by_cases hTv : T = v
      · exact .inl hTv
      · refine .inr ?_
        have hTg : T.Good := has_good hM he
        by_cases hs : ∃ e, M.Has "issubtype<Bool>".toList e
        · obtain ⟨e, hs⟩ := hs
          obtain ⟨⟨tb, d, rfl⟩, h3⟩ := htwo e hs
          have : ∃ w, (TEntry.func tb d).Maps [v, T] w := by
            by_cases hm : ∃ w, ([v, T], w) ∈ tb
            · obtain ⟨w, hm⟩ := hm; exact ⟨w, .entry hm⟩
            · exact ⟨d, .default (fun w hw => hm ⟨w, hw⟩)⟩
          obtain ⟨w, hw⟩ := this
          rw [isTypeOf_sub hM hv hTg hs hw hTv] at h1
          injection h1 with h1
          rcases h3 T w hw with e | e
          · subst e
            exact ⟨_, hs, hw⟩
          · subst e
            rw [parseBool_false] at h1
            subst h1
            cases h2
        · have hne : ¬ T.show = v.show := fun e => hTv (show_inj T v hTg hv e)
          rw [isTypeOf] at h1
          simp only [if_neg hne] at h1
          rw [getFuncValue, not_has_get (fun e he => hs ⟨e, he⟩)] at h1
          injection h1 with h1
          subst h1
          cases h2
    · have htv : typeVal C (extractModel M) (.cls r) = .error .keyError := by
        rw [typeVal, not_has_get (fun e he => hex ⟨e, he⟩)]
      rw [htv] at h1
      injection h1 with h1
      subst h1
      cases h2

example : preciseType exC2 (extractModel (exM2 [])) 2 5 "T0".toList (.opt (.cls 0))
    = .ok (.cls 0) := by decide +kernel

end Nagini.Cex
