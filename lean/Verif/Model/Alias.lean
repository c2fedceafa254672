/-!
Model of the alias bookkeeping in lib/context.py.

Names are numbers, variables an arbitrary type `V`.  Commands are the ways the
translators use the context.  Copying of `alt_types` in `set_alias` is not modelled.
-/
namespace Nagini.Alias

/-- The alias part of a context.  Models the attributes `var_aliases`, `old_aliases`,
`_current_alias_context` and `_alias_context_stack`, lib/context.py:31-44. -/
structure State (V : Type) where
  /-- var_aliases -/
  var : Nat → Option V
  /-- old_aliases, the last element of each list first -/
  old : Nat → List V
  /-- _current_alias_context -/
  cur : List Nat
  /-- _alias_context_stack -/
  stack : List (List Nat)

variable {V : Type}

/-- `set_alias`.  Models lib/context.py:164-180. -/
def setAlias (σ : State V) (n : Nat) (v : V) : State V :=
  { σ with
    var := fun k => if k = n then some v else σ.var k
    old := match σ.var n with
      | some o => fun k => if k = n then o :: σ.old k else σ.old k
      | none => σ.old
    cur := σ.cur ++ [n] }

/-- `remove_alias`.  Models lib/context.py:182-192. -/
def removeAlias (σ : State V) (n : Nat) : State V :=
  match σ.old n with
  | o :: os => { σ with
      var := fun k => if k = n then some o else σ.var k
      old := fun k => if k = n then os else σ.old k }
  | [] => { σ with var := fun k => if k = n then none else σ.var k }

/-- Uses of the context: looking up a name, `set_alias` (removed by the enclosing
`aliases_context`), a `with additional_aliases` block (also a `set_alias` followed by the
matching `remove_alias`), and a `with aliases_context` block.  Models the uses of
lib/context.py:136-192 in translators/statement.py:1112-1114, translators/statement.py:856,
translators/pure.py:490-492 and translators/expression.py:174-183. -/
inductive Cmd (V : Type)
  | look (n : Nat)
  | set (n : Nat) (v : V)
  | additional (as : List (Nat × V)) (body : List (Cmd V))
  | scope (body : List (Cmd V))

mutual
/-- Executes a command; returns the results of lookups in order.  `additional` models
lib/context.py:136-147, `scope` models lib/context.py:149-162. -/
def exec (σ : State V) : Cmd V → State V × List (Option V)
  | .look n => (σ, [σ.var n])
  | .set n v => (setAlias σ n v, [])
  | .additional as body =>
    let σ1 := as.foldl (fun s p => setAlias s p.1 p.2) σ
    let (σ2, t) := execList σ1 body
    (as.foldl (fun s p => removeAlias s p.1) σ2, t)
  | .scope body =>
    let σ1 := { σ with stack := σ.cur :: σ.stack, cur := [] }
    let (σ2, t) := execList σ1 body
    let σ3 := σ2.cur.foldl removeAlias σ2
    ({ σ3 with cur := σ3.stack.headD [], stack := σ3.stack.tail }, t)
/-- Executes commands in order, as the bodies of the blocks of lib/context.py:136-162. -/
def execList (σ : State V) : List (Cmd V) → State V × List (Option V)
  | [] => (σ, [])
  | c :: cs =>
    let (σ1, t1) := exec σ c
    let (σ2, t2) := execList σ1 cs
    (σ2, t1 ++ t2)
end

/-- The state of a fresh context.  Models lib/context.py:31-44. -/
def init : State V := ⟨fun _ => none, fun _ => [], [], []⟩

end Nagini.Alias
