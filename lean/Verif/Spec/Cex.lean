/-!
# Values of counterexamples, independently of their text

The solver's model consists of constants and function tables whose entries
are *trees*: a symbol, or a symbol applied to arguments.  Silver hands them to
the Python code as text (`Silver`'s `ModelEntry.toString`, trusted: a symbol is
printed as such, an application as `(f a b)` with single spaces).  This file
defines trees, their printing, and the meaning of Silicon's terms in such a
model, without looking at any text.
-/

namespace Nagini.Cex

/-- Text. -/
abbrev Str := List Char

/-- Values of the solver's model. -/
inductive SExp where
  | atom (a : Str)
  | app (f : Str) (x : SExp) (xs : List SExp)

mutual
/-- The text of a tree. -/
def SExp.show : SExp → Str
  | .atom a => a
  | .app f x xs => '(' :: f ++ ' ' :: x.show ++ showMore xs ++ [')']
/-- The text of the further arguments of an application. -/
def showMore : List SExp → Str
  | [] => []
  | y :: ys => ' ' :: y.show ++ showMore ys
end

/-- Symbols are not empty and have neither blanks nor parentheses. -/
def GoodSym (a : Str) : Prop :=
  a ≠ [] ∧ ∀ c ∈ a, c.isWhitespace = false ∧ c ≠ '\x0b' ∧ c ≠ '\x0c' ∧ c ≠ '(' ∧ c ≠ ')'

mutual
/-- All symbols of a tree are symbols. -/
def SExp.Good : SExp → Prop
  | .atom a => GoodSym a
  | .app f x xs => GoodSym f ∧ x.Good ∧ AllGood xs
/-- All symbols of a list of trees are symbols. -/
def AllGood : List SExp → Prop
  | [] => True
  | y :: ys => y.Good ∧ AllGood ys
end

/-- Entries of the solver's model: constants and tables with a default. -/
inductive TEntry where
  | const (v : SExp)
  | func (table : List (List SExp × SExp)) (default : SExp)

/-- The solver's model: symbols with their entries. -/
abbrev TModel := List (Str × TEntry)

/-- The entry of a symbol. -/
inductive TModel.Has (M : TModel) : Str → TEntry → Prop where
  | mk {x e} : (x, e) ∈ M → TModel.Has M x e

/-- The value of a function of the model. -/
inductive TEntry.Maps : TEntry → List SExp → SExp → Prop where
  | const {v} : TEntry.Maps (.const v) [] v
  | entry {tb d xs v} : (xs, v) ∈ tb → TEntry.Maps (.func tb d) xs v
  | default {tb d xs} : (∀ v, (xs, v) ∉ tb) → TEntry.Maps (.func tb d) xs d

/-- Entries are made of good trees; tables have one value per key. -/
def TEntry.Good : TEntry → Prop
  | .const v => v.Good
  | .func tb d => d.Good ∧ (∀ e ∈ tb, AllGood e.1 ∧ e.2.Good) ∧ (tb.map Prod.fst).Nodup

/-- Models are made of good entries, one for each symbol. -/
def TModel.Good (M : TModel) : Prop :=
  (∀ e ∈ M, TEntry.Good e.2) ∧ (M.map Prod.fst).Nodup

/-- Silicon's terms. -/
inductive Term where
  | unit
  | int (n : Int)
  | null
  | var (x : Str)
  | app (f : Str) (args : List Term)
  | combine (a b : Term)
  | first (t : Term)
  | second (t : Term)
  /-- `SortWrapper`, from a sort to a sort -/
  | wrap (fr to : Str) (t : Term)
  /-- `PredicateLookup` -/
  | predLookup (p : Str) (psf snap : Term)
  | seqAppend (a b : Term)
  | seqSingle (t : Term)
  | seqNil
  /-- any other term, e.g. arithmetic -/
  | other

/-- The numeral of an integer in the solver's model: negative numbers are
applications of `-`. -/
def numeral : Int → SExp
  | .ofNat n => .atom (Nat.toDigits 10 n)
  | .negSucc n => .app ['-'] (.atom (Nat.toDigits 10 (n + 1))) []

/-- The symbol of the model that stands for a function of the program: the
limited version if there is one, otherwise the function itself, and otherwise
its name with sorts in angle brackets. -/
inductive SymbolOf (M : TModel) (f : Str) : Str → Prop where
  | limited {e} : M.Has (f ++ "%limited".toList) e → SymbolOf M f (f ++ "%limited".toList)
  | plain {e} : (∀ e, ¬ M.Has (f ++ "%limited".toList) e) → M.Has f e → SymbolOf M f f
  | angle : (∀ e, ¬ M.Has (f ++ "%limited".toList) e) → (∀ e, ¬ M.Has f e) →
      SymbolOf M f (f.map fun c => if c = '[' then '<' else if c = ']' then '>' else c)

mutual
/-- The value of a term. -/
inductive Den (M : TModel) : Term → SExp → Prop where
  | unit : Den M .unit (.atom "$Snap.unit".toList)
  | int {n} : Den M (.int n) (numeral n)
  | null {v} : M.Has "$Ref.null".toList (.const v) → Den M .null v
  | var {x v} : M.Has x (.const v) → Den M (.var x) v
  | app {f g args e vs v} : f ≠ "str___create__".toList → SymbolOf M f g → M.Has g e →
      DenAll M args vs → TEntry.Maps e vs v → Den M (.app f args) v
  | combine {a b x y} : Den M a x → Den M b y →
      Den M (.combine a b) (.app "$Snap.combine".toList x [y])
  | first {t x y} : Den M t (.app "$Snap.combine".toList x [y]) → Den M (.first t) x
  | second {t x y} : Den M t (.app "$Snap.combine".toList x [y]) → Den M (.second t) y
  | wrap {fr to t x e v} : Den M t x →
      M.Has ("$SortWrappers.".toList ++ fr ++ "To".toList ++ to) e →
      TEntry.Maps e [x] v → Den M (.wrap fr to t) v
  | predLookup {p psf snap x y e v} : Den M psf x → Den M snap y →
      M.Has ("$PSF.lookup_".toList ++ p) e →
      TEntry.Maps e [x, y] v → Den M (.predLookup p psf snap) v
/-- The values of terms. -/
inductive DenAll (M : TModel) : List Term → List SExp → Prop where
  | nil : DenAll M [] []
  | cons {t ts v vs} : Den M t v → DenAll M ts vs → DenAll M (t :: ts) (v :: vs)
end

/-- A sequence of characters, built from singletons in any way. -/
inductive Spells : Term → Str → Prop where
  | nil : Spells .seqNil []
  | single {c : Char} : Spells (.seqSingle (.int c.toNat)) [c]
  | append {a b s t} : Spells a s → Spells b t → Spells (.seqAppend a b) (s ++ t)

end Nagini.Cex
