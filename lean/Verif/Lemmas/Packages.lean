import Verif.Model.Packages

/-!
Lemmas for C147.
-/
namespace Nagini.Packages

/-- The entries that an import adds. -/
def edges : Key → Path → Nat → List ((Key × Nat) × Key)
  | _, [], _ => []
  | k, [x], f => [((k, x), .file f)]
  | k, x :: y :: p, f => ((k, x), .dir x) :: edges (.dir x) (y :: p) f

theorem add_mem (f : Nat) : ∀ (p : Path) (st : Store) (k : Key) (e : (Key × Nat) × Key),
    e ∈ add st k p f ↔ e ∈ st ∨ e ∈ edges k p f
  | [], st, k, e => by simp [add, edges]
  | [x], st, k, e => by simp [add, edges, or_comm]
  | x :: y :: p, st, k, e => by
    simp only [add, edges, add_mem f (y :: p), List.mem_cons]
    constructor
    · rintro ((h | h) | h)
      · exact .inr (.inl h)
      · exact .inl h
      · exact .inr (.inr h)
    · rintro (h | h | h)
      · exact .inl (.inr h)
      · exact .inl (.inl h)
      · exact .inr h

theorem run_mem (is : List Import) (e : (Key × Nat) × Key) :
    e ∈ run is ↔ ∃ i ∈ is, e ∈ edges (.file i.into) i.name i.file := by
  have key : ∀ (is : List Import) (st : Store),
      e ∈ is.foldl (fun st i => add st (.file i.into) i.name i.file) st ↔
        e ∈ st ∨ ∃ i ∈ is, e ∈ edges (.file i.into) i.name i.file := by
    intro is
    induction is with
    | nil => intro st; simp
    | cons i is ih =>
      intro st
      simp only [List.foldl_cons, ih, add_mem, List.mem_cons, exists_eq_or_imp, or_assoc]
  simpa [run] using key is []

/-- Entries with the same name are the same. -/
def Functional (st : Store) : Prop := ∀ s t t', (s, t) ∈ st → (s, t') ∈ st → t = t'

theorem get_of_mem {st : Store} {k : Key} {x : Nat} {t : Key} (hf : Functional st) (h : ((k, x), t) ∈ st) :
    st.get k x = some t := by
  have key : ∀ (l : Store), (∃ t, ((k, x), t) ∈ l) → ∃ t, ((k, x), t) ∈ l ∧ l.get k x = some t := by
    intro l
    induction l with
    | nil => rintro ⟨t, h⟩; cases h
    | cons e l ih =>
      obtain ⟨⟨k', x'⟩, t'⟩ := e
      rintro ⟨t, h⟩
      by_cases he : k' = k ∧ x' = x
      · exact ⟨t', by simp [he.1, he.2], by simp [Store.get, he]⟩
      · have hl : ((k, x), t) ∈ l := by
          rcases List.mem_cons.1 h with h | h
          · simp only [Prod.mk.injEq] at h
            exact absurd ⟨h.1.1.symm, h.1.2.symm⟩ he
          · exact h
        obtain ⟨t2, h1, h2⟩ := ih ⟨t, hl⟩
        exact ⟨t2, List.mem_cons_of_mem _ h1, by simp [Store.get, he, h2]⟩
  obtain ⟨t', h1, h2⟩ := key st ⟨t, h⟩
  rw [h2, hf _ _ _ h1 h]

theorem lookup_edges {st : Store} (hf : Functional st) (f : Nat) : ∀ (p : Path) (k : Key), p ≠ [] →
    (∀ e ∈ edges k p f, e ∈ st) → lookup st k p = some (.file f)
  | [], _, h, _ => absurd rfl h
  | [x], k, _, h => by
    simp [lookup, get_of_mem hf (h ((k, x), .file f) (by simp [edges]))]
  | x :: y :: p, k, _, h => by
    have h1 := get_of_mem hf (h ((k, x), .dir x) (by simp [edges]))
    have h2 := lookup_edges hf f (y :: p) (.dir x) (by simp) fun e he => h e (by simp [edges, he])
    simp only [lookup, h1] at h2 ⊢
    exact h2

end Nagini.Packages
