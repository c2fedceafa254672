import Verif.Model.Alias

/-!
Lexical scoping of aliases.
-/
namespace Nagini.Alias
variable {V : Type}

/-- Environment extended by bindings (later ones win). -/
def extend (env : Nat → Option V) (as : List (Nat × V)) : Nat → Option V :=
  as.foldl (fun e p => fun k => if k = p.1 then some p.2 else e k) env

mutual
/-- Lexical semantics: a block's bindings are visible in the block only. -/
def lex (env : Nat → Option V) : Cmd V → (Nat → Option V) × List (Option V)
  | .look n => (env, [env n])
  | .set n v => (extend env [(n, v)], [])
  | .additional as body => (env, (lexList (extend env as) body).2)
  | .scope body => (env, (lexList env body).2)
def lexList (env : Nat → Option V) : List (Cmd V) → (Nat → Option V) × List (Option V)
  | [] => (env, [])
  | c :: cs =>
    let r1 := lex env c
    let r2 := lexList r1.1 cs
    (r2.1, r1.2 ++ r2.2)
end

mutual
/-- How often a name is bound by `additional` blocks belonging to the current scope. -/
def direct (n : Nat) : Cmd V → Nat
  | .look _ => 0
  | .set _ _ => 0
  | .additional as body => (as.filter fun p => p.1 = n).length + directList n body
  | .scope _ => 0
def directList (n : Nat) : List (Cmd V) → Nat
  | [] => 0
  | c :: cs => direct n c + directList n cs
end

mutual
/-- How often a name is bound by `additional` blocks inside a `scope`. -/
def inScopes (n : Nat) : Cmd V → Nat
  | .look _ => 0
  | .set _ _ => 0
  | .additional _ body => inScopesList n body
  | .scope body => directList n body + inScopesList n body
def inScopesList (n : Nat) : List (Cmd V) → Nat
  | [] => 0
  | c :: cs => inScopes n c + inScopesList n cs
end

mutual
/-- No `set` outside of a `scope` block. -/
def noSet : Cmd V → Bool
  | .look _ => true
  | .set _ _ => false
  | .additional _ body => noSetList body
  | .scope _ => true
def noSetList : List (Cmd V) → Bool
  | [] => true
  | c :: cs => noSet c && noSetList cs
end

mutual
/-- Every `scope` contains only lookups, `set`s and further `scope`s; `additional`
contains no `set`. -/
def clean : Cmd V → Bool
  | .look _ => true
  | .set _ _ => true
  | .additional _ body => noSetList body && cleanList body
  | .scope body => cleanScopeList body
def cleanList : List (Cmd V) → Bool
  | [] => true
  | c :: cs => clean c && cleanList cs
def cleanScope : Cmd V → Bool
  | .look _ => true
  | .set _ _ => true
  | .additional _ _ => false
  | .scope body => cleanScopeList body
def cleanScopeList : List (Cmd V) → Bool
  | [] => true
  | c :: cs => cleanScope c && cleanScopeList cs
end

end Nagini.Alias
