import Verif.Model.Withs

/-!
Python's with statement (PEP 343).
-/
namespace Nagini.Withs

variable {S V : Type}

/-- Executes a with statement; `truthy` is the truth value of objects, `tb` the traceback of an
exception. -/
def python (truthy : V → Bool) (tb : V) (w : Stmt S V) (s : S) : S × Outcome V :=
  match w.context s with
  | (s1, c) =>
    match w.enter c s1 with
    | (s2, x) =>
      match w.body (w.bind x s2) with
      | (s3, .raise e) =>
        match w.exit c (some e) (some tb) s3 with
        | (s4, r) => (s4, if truthy r then .normal else .raise e)
      | (s3, o) => ((w.exit c none none s3).1, o)

/-- The state after the body, and how it ends. -/
def afterBody (w : Stmt S V) (s : S) : S × Outcome V :=
  w.body (w.bind (w.enter (w.context s).2 (w.context s).1).2 (w.enter (w.context s).2 (w.context s).1).1)

end Nagini.Withs
