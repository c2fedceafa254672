import Verif.Lemmas.Names

/-!
C22, C23: numeric string identities.  C36: freshness of generated names.
-/
namespace Nagini.Names

/-! ### C22 -/

/-- **C22, full claim.** Different strings have different numeric identities. -/
def IdentitiesUnique : Prop := ∀ s t : PyStr, stringToInt s = stringToInt t → s = t

/-- C22 is violated: the two valid Python identifiers `ac` (97, 99) and `šb`
(353, 98) have the same numeric identity, so a definedness fact about one
variable is a definedness fact about the other. -/
theorem C22_identities_unique_fails : ¬ IdentitiesUnique := by
  intro h
  have := h [97, 99] [353, 98] (by decide)
  simp at this

/-- C22 also fails within ASCII if NUL characters are allowed (string literals). -/
theorem C22_trailing_nul_fails :
    ∃ s t : PyStr, (∀ c ∈ s, c < 128) ∧ (∀ c ∈ t, c < 128) ∧ s ≠ t ∧ stringToInt s = stringToInt t :=
  ⟨[], [0], by simp, by simp, by simp, by decide⟩

/-- **C22, proved part.** Strings over the code points 1..255 (in particular all
ASCII identifiers) have unique identities.  Missing: code points ≥ 256 and NUL,
where the claim is false (see above). -/
theorem C22_identities_unique_partial (s t : PyStr)
    (hs : ∀ c ∈ s, 0 < c ∧ c < 256) (ht : ∀ c ∈ t, 0 < c ∧ c < 256)
    (h : stringToInt s = stringToInt t) : s = t := by
  rw [stringToInt_eq, stringToInt_eq] at h
  have e : ∀ u : PyStr, (∀ c ∈ u, 0 < c ∧ c < 256) → Nat.digits 256 (Nat.ofDigits 256 u) = u := by
    intro u hu
    refine Nat.digits_ofDigits 256 (by norm_num) u (fun l hl => (hu l hl).2) (fun hne => ?_)
    have := (hu _ (List.getLast_mem hne)).1
    omega
  rw [← e s hs, ← e t ht, h]

/-- Non-vacuity: `f` and `field` are strings of the covered kind. -/
example : (∀ c ∈ ([102, 105, 101, 108, 100] : PyStr), 0 < c ∧ c < 256) ∧
    stringToInt [102] ≠ stringToInt [102, 105, 101, 108, 100] := by decide

/-- The converse failure mode is absent for the covered strings even across
lengths: a proper prefix never has the identity of the longer string. -/
theorem C22_prefix_distinct_partial (s t : PyStr)
    (hs : ∀ c ∈ s, 0 < c ∧ c < 256) (ht : ∀ c ∈ t, 0 < c ∧ c < 256) (hne : t ≠ []) :
    stringToInt (s ++ t) ≠ stringToInt s := by
  intro h
  have := C22_identities_unique_partial (s ++ t) s (by
    intro c hc
    rcases List.mem_append.1 hc with h | h
    · exact hs c h
    · exact ht c h) hs h
  exact hne (by simpa using this)

example : stringToInt ([97] ++ [98]) ≠ stringToInt [97] :=
  C22_prefix_distinct_partial [97] [98] (by decide) (by decide) (by decide)

/-! ### C23 -/

/-- **C23, full claim.** Decoding inverts encoding. -/
def DecodeEncode : Prop := ∀ s : PyStr, intToString (stringToInt s) = s

/-- C23 is violated: the one-character string `Ā` (256) decodes to `"\x00\x01"`. -/
theorem C23_decode_encode_fails : ¬ DecodeEncode := by
  intro h
  have := h [256]
  rw [intToString_eq, stringToInt_eq] at this
  simp at this

/-- **C23, exact characterisation.** Decoding gives the string back *iff* all its
code points are below 256 and it does not end in NUL. -/
theorem C23_decode_encode_iff_partial (s : PyStr) :
    intToString (stringToInt s) = s ↔
      (∀ c ∈ s, c < 256) ∧ (∀ h : s ≠ [], s.getLast h ≠ 0) := by
  rw [intToString_eq, stringToInt_eq]
  constructor
  · intro h
    refine ⟨fun c hc => ?_, fun hne => ?_⟩
    · rw [← h] at hc
      exact Nat.digits_lt_base (by norm_num) hc
    · have hz : Nat.ofDigits 256 s ≠ 0 := by
        intro h0
        rw [h0] at h
        simp at h
        exact hne h
      have := Nat.getLast_digit_ne_zero 256 hz
      simpa only [h] using this
  · rintro ⟨h1, h2⟩
    exact Nat.digits_ofDigits 256 (by norm_num) s h1 h2

example : intToString (stringToInt [114, 101, 115]) = [114, 101, 115] :=
  (C23_decode_encode_iff_partial _).2 (by decide)

/-- The other direction of the round trip holds without restriction. -/
theorem C23_encode_decode (i : Nat) : stringToInt (intToString i) = i := by
  rw [intToString_eq, stringToInt_eq, Nat.ofDigits_digits]

example : stringToInt (intToString 25441) = 25441 := C23_encode_decode _

/-! ### C36 -/

/-- One request: the scope asking and the wished name. -/
abbrev Request := Scope × PyStr

/-- The names handed out by a sequence of requests that all terminate, starting
in store `σ`.  (Specification-level driver of `getFreshName`; each request may
use any number of loop tests.) -/
inductive Run : Store → List Request → List (Nat × PyStr) → Store → Prop
  | nil (σ) : Run σ [] [] σ
  | cons {σ σ' σ'' sc name r rs out} (fuel : Nat) :
      getFreshName fuel σ sc name = some (r, σ') → Run σ' rs out σ'' →
      Run σ ((sc, name) :: rs) ((sc.setOf, r) :: out) σ''

/-- **C36 (termination).** Every request terminates: the number of loop tests is
at most the number of names already used plus one. -/
theorem C36_request_terminates (σ : Store) (sc : Scope) (name : PyStr) :
    (getFreshName ((σ sc.setOf).length + 1) σ sc name).isSome := by
  unfold getFreshName
  split
  · have := searchName_total σ sc name ((σ sc.setOf).length + 1) 0 (by omega)
    cases h : searchName σ sc name ((σ sc.setOf).length + 1) 0 <;> simp_all
  · simp

example : getFreshName 3 (fun _ => [[97], [97, 95, 48]]) (.nested (.root 0)) [97] =
    some ([97, 95, 49], addName (fun _ => [[97], [97, 95, 48]]) (.root 0) [97, 95, 49]) := by
  have h0 : decDigits 0 [] = [48] := by rw [decDigits]; simp
  have h1 : decDigits 1 [] = [49] := by rw [decDigits]; simp
  simp [getFreshName, containsName, searchName, candidate, addName, h0, h1]

theorem run_fresh {σ rs out σ'} (h : Run σ rs out σ') :
    out.Nodup ∧ (∀ p ∈ out, p.2 ∉ σ p.1) ∧ (∀ i n, n ∈ σ i → n ∈ σ' i) ∧
      (∀ p ∈ out, p.2 ∈ σ' p.1) := by
  induction h with
  | nil σ => simp
  | @cons σ σ' σ'' sc name r rs out fuel hreq _ ih =>
    obtain ⟨hfresh, rfl⟩ := getFreshName_spec hreq
    obtain ⟨hnd, hnot, hmono, hin⟩ := ih
    have hr : r ∈ addName σ sc r sc.setOf := by rw [mem_addName]; simp
    refine ⟨?_, ?_, ?_, ?_⟩
    · rw [List.nodup_cons]
      refine ⟨fun hmem => ?_, hnd⟩
      exact hnot _ hmem hr
    · intro p hp
      rcases List.mem_cons.1 hp with rfl | hp
      · exact hfresh
      · intro hm
        exact hnot p hp ((mem_addName _ _ _ _ _).2 (Or.inr hm))
    · intro i n hn
      exact hmono i n ((mem_addName _ _ _ _ _).2 (Or.inr hn))
    · intro p hp
      rcases List.mem_cons.1 hp with rfl | hp
      · exact hmono _ _ hr
      · exact hin p hp

/-- **C36 (uniqueness).** For every history of requests from arbitrary scopes, the
names handed out for one program (same used-name set) are pairwise different and
none of them was in use (keyword or earlier name) before. -/
theorem C36_names_unique {σ rs out σ'} (h : Run σ rs out σ') :
    (∀ i, (out.filter (·.1 = i)).map Prod.snd |>.Nodup) ∧ (∀ p ∈ out, p.2 ∉ σ p.1) := by
  obtain ⟨hnd, hnot, -, -⟩ := run_fresh h
  refine ⟨fun i => ?_, hnot⟩
  refine List.Nodup.map_on ?_ (hnd.filter _)
  intro x hx y hy hxy
  simp at hx hy
  exact Prod.ext (hx.2.trans hy.2.symm) hxy

/-- **C36 (every history runs).** -/
theorem C36_history_terminates (σ : Store) (rs : List Request) : ∃ out σ', Run σ rs out σ' ∧
    out.length = rs.length := by
  induction rs generalizing σ with
  | nil => exact ⟨[], σ, .nil σ, rfl⟩
  | cons q rs ih =>
    obtain ⟨sc, name⟩ := q
    have := C36_request_terminates σ sc name
    obtain ⟨⟨r, σ1⟩, hr⟩ := Option.isSome_iff_exists.1 this
    obtain ⟨out, σ', h, hl⟩ := ih σ1
    exact ⟨_, σ', .cons _ hr h, by simp [hl]⟩

/-- Non-vacuity: two requests for `a` from different scopes of one program. -/
example : ∃ out σ', Run (fun _ => []) [(.root 0, [97]), (.nested (.root 0), [97])] out σ' ∧
    out.length = 2 := C36_history_terminates _ _

end Nagini.Names
