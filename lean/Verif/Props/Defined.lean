import Verif.Props.Names
import Verif.Lemmas.Defined

/-!
C76: a verified method never reads a local variable that is not assigned; C77: methods that assign all
their variables before reading them are not rejected for that reason.
-/
namespace Nagini.Defined

open Names

/-- The Silver names: different locals have different names, and error variables have names of their own
(see C36). -/
def Fresh {σ : Type} (sil : PyStr → PyStr) (b : Stmt σ) : Prop :=
  (∀ x ∈ names b, ∀ y ∈ names b, sil x = sil y → x = y) ∧
  ∀ e ∈ errs b, ∀ x ∈ names b, e ≠ sil x

/-- **C76, full claim.** A method that verifies never reads an unassigned local variable, for calls in
states with its precondition. -/
def VerifiedNeverUndefined : Prop :=
  ∀ (σ : Type) (sil : PyStr → PyStr) (pre : σ → Prop) (b : Stmt σ), Fresh sil b →
    verifies sil pre b → NeverUndefined pre b

/-- An action that does nothing. -/
def nop : Unit → Bool → Unit → Prop := fun _ b _ => b = false

/-- An action that raises an exception. -/
def raises : Unit → Bool → Unit → Prop := fun _ b _ => b = true

/-- C76 is violated: calling a pure function with a local variable `x` makes Viper believe that `x` is
defined in the calling method (if the names agree). -/
theorem C76_pure_function_fails : ∃ b : Stmt Unit, Fresh id b ∧ verifies id (fun _ => True) b ∧
    ¬ NeverUndefined (fun _ => True) b := by
  refine ⟨.seq (.pure [[120]]) (.use [120]), ⟨?_, by simp [errs]⟩, ?_, ?_⟩
  · simp [names]
  · intro δ s _ h
    exact ⟨h, trivial⟩
  · intro h
    exact h () _ _ trivial (.seq .pure (.use_undef (by simp)))

/-- C76 is violated: in inlined methods nothing is checked. -/
theorem C76_inlined_fails : ∃ b : Stmt Unit, Fresh id b ∧ verifies id (fun _ => True) b ∧
    ¬ NeverUndefined (fun _ => True) b := by
  refine ⟨.inl (.use [120]), ⟨by simp [names], by simp [errs]⟩, ?_, ?_⟩
  · intro δ s _
    exact trivial
  · intro h
    exact h () _ _ trivial (.inl_undef (.use_undef (by simp)))

/-- C76 is violated: a variable with the name of an exception (`e = 1`, then `except E as e`) is unbound
after the handler, but Viper still knows the earlier assignment. -/
theorem C76_except_name_fails : ∃ b : Stmt Unit, Fresh id b ∧ verifies id (fun _ => True) b ∧
    ¬ NeverUndefined (fun _ => True) b := by
  refine ⟨.seq (.assign [101] nop) (.seq (.tryx (.act raises) [101] [114] .skip) (.use [101])),
    ⟨by simp [names], by simp [names, errs]⟩, ?_, ?_⟩
  · intro δ s _ b s' hr
    cases (show b = false from hr)
    intro hd b s'' hr
    cases (show b = true from hr)
    intro he
    exact ⟨hd, trivial⟩
  · intro h
    refine h () [] [101] trivial (.seq (.assign (s' := ()) rfl) (.seq
      (.handle_ok (.act_exc (s' := ()) rfl) .skip) (.use_undef ?_)))
    simp

/-- C76 is violated: the variables `ac` and `šb` have the same identity (see C22). -/
theorem C76_identity_clash_fails : ∃ b : Stmt Unit, Fresh id b ∧ verifies id (fun _ => True) b ∧
    ¬ NeverUndefined (fun _ => True) b := by
  refine ⟨.seq (.assign [97, 99] nop) (.use [353, 98]), ⟨by simp [names], by simp [errs]⟩, ?_, ?_⟩
  · intro δ s _ b s' hr
    cases (show b = false from hr)
    intro hd
    have e : stringToInt [97, 99] = stringToInt [353, 98] := by decide
    exact ⟨e ▸ hd, trivial⟩
  · intro h
    exact h () [[97, 99]] [353, 98] trivial (.seq (.assign (s' := ()) rfl) (.use_undef (by decide)))

theorem C76_fails : ¬ VerifiedNeverUndefined := fun h => by
  obtain ⟨b, hf, hv, hn⟩ := C76_inlined_fails
  exact hn (h _ _ _ _ hf hv)

/-- Names over the code points that are identified properly (see C22). -/
def Latin (s : PyStr) : Prop := ∀ c ∈ s, 0 < c ∧ c < 256

/-- **C76, proved part.** A method that verifies never reads an unassigned local variable if names have
code points in 1..255, no local of a called pure function has the Silver name of a local of the method, the
names bound by handlers are used in their handlers only, and the methods inlined never read unassigned
variables. -/
theorem C76_verified_never_undefined_partial {σ : Type} (sil : PyStr → PyStr) (pre : σ → Prop)
    (b : Stmt σ) (hf : Fresh sil b) (hl : ∀ x ∈ names b, Latin (sil x)) (hle : ∀ e ∈ errs b, Latin e)
    (hlp : ∀ n ∈ pureNames b, Latin n) (hp : ∀ n ∈ pureNames b, ∀ x ∈ names b, n ≠ sil x)
    (hs : Scoped (handlerNames b) [] b) (hv : verifies sil pre b) : NeverUndefined pre b := by
  intro s D x hpre hx
  have hN := vars_names (L := names b) hx hs (by simp) (fun y h => h)
  have hxn := hN.2 D x rfl
  let δ : Nat → Prop := fun i => (∃ y ∈ D, stringToInt (sil y) = i) ∨
    (∃ e ∈ errs b, stringToInt e = i) ∨ (∃ n ∈ pureNames b, stringToInt n = i)
  have key := follow (N := handlerNames b) (sil := sil) (δ := δ) hx hs (by simp) (fun _ _ => rfl)
    (fun e he => .inr (.inl ⟨e, he, rfl⟩)) (fun n hn => .inr (.inr ⟨n, hn, rfl⟩)) (by simp)
    (fun y hy _ => .inl ⟨y, hy, rfl⟩) (hv δ s hpre) D x rfl
  rcases key.2 with ⟨y, hy, hi⟩ | ⟨e, he, hi⟩ | ⟨n, hn, hi⟩
  · have hyn := hN.1 y hy
    have := C22_identities_unique_partial _ _ (hl y hyn) (hl x hxn) hi
    have := hf.1 y hyn x hxn this
    subst this
    exact undef_not_mem (N := []) hx rfl hy
  · exact hf.2 e he x hxn (C22_identities_unique_partial _ _ (hle e he) (hl x hxn) hi)
  · exact hp n hn x hxn (C22_identities_unique_partial _ _ (hlp n hn) (hl x hxn) hi)

/-- An assignment that may raise an exception. -/
def mayRaise : Unit → Bool → Unit → Prop := fun _ _ _ => True

/-- Non-vacuity: `try: x = f(); except Exception as e: g(e); x = 1` and then `h(x)`, where `g` is a pure
function with local variable `y`. -/
def exBody : Stmt Unit :=
  .seq (.tryx (.assign [120] mayRaise) [101] [114] (.seq (.use [101]) (.seq (.pure [[121]])
    (.assign [120] mayRaise)))) (.use [120])

theorem exBody_verifies : verifies id (fun _ => True) exBody := by
  intro δ s _ b s' _
  cases b
  · intro hx; exact ⟨hx, trivial⟩
  · intro he
    refine ⟨he, fun _ b s'' _ => ?_⟩
    cases b
    · intro hx; exact ⟨hx, trivial⟩
    · trivial

example : NeverUndefined (fun _ => True) exBody := by
  refine C76_verified_never_undefined_partial id _ exBody ⟨?_, ?_⟩ ?_ ?_ ?_ ?_ ?_ exBody_verifies
  all_goals simp [exBody, names, errs, pureNames, Latin, Scoped, handlerNames]

/-- **C77.** Code that assigns every variable before it is read, on all paths through its text, is not
rejected by these checks: if it verifies without reading local variables, it verifies. -/
theorem C77_assigned_accepted {σ : Type} (sil : PyStr → PyStr) (pre : σ → Prop) (b : Stmt σ)
    (D : List PyStr) (hda : da [] b = some D) (hv : verifies sil pre (noUses b)) :
    verifies sil pre b := by
  intro δ s hpre
  exact wp_mono _ (fun _ _ => trivial) (fun _ h => h)
    (accept (Q := fun _ => True) (E := fun _ => True) b hda (by simp) (hv δ s hpre))

example : ∃ D, da [] exBody = some D := ⟨_, rfl⟩
example : verifies id (fun _ => True) exBody := C77_assigned_accepted id _ exBody _ rfl (by
  intro δ s _ b s' _
  cases b
  · intro hx; trivial
  · intro he _ b s'' _
    cases b
    · intro hx; trivial
    · trivial)

/-- **C77.** The analysis `da` of the previous theorem is one that Python agrees with: such code never reads
an unassigned variable (this also shows that methods to be inlined can meet the hypothesis of C76). -/
theorem C77_assigned_never_undefined {σ : Type} (b : Stmt σ) (D : List PyStr) (hda : da [] b = some D) :
    NeverUndefined (fun _ => True) b :=
  fun _ _ _ _ hx => da_sound hx (by simp) hda

example : NeverUndefined (fun _ => True) exBody := C77_assigned_never_undefined exBody _ rfl

end Nagini.Defined
