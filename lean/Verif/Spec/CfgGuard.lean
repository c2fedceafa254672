import Verif.Model.Cfg

/-!
The programs for which the generated control flow graph is shown to be right: conditions on the positions of
calls, returns and loop jumps.  They use only the syntax.
-/
namespace Nagini.Cfg

variable {σ Val Exc Ty : Type}

def Frame.id : Frame Ty → Nat
  | .loop i => i
  | .loopElse i => i
  | .body i _ _ => i
  | .other i _ => i
  | .final i => i
  | .withB i => i

/-- No clean-up code, and no except clause with a name. -/
def Frame.outerOk : Frame Ty → Bool
  | .body _ f hs => !f && hs.all (!·.2)
  | .withB _ => false
  | .other _ f => !f
  | _ => true

/-- No protected region and no clean-up code. -/
def Frame.inert : Frame Ty → Bool
  | .body _ _ _ => false
  | .withB _ => false
  | .other _ f => !f
  | _ => true

/-- No with block, and no except clause or else suite with a finally suite behind it. -/
def Frame.chainOk : Frame Ty → Bool
  | .withB _ => false
  | .other _ f => !f
  | _ => true

/-- Where exceptions may be raised: not in an except clause or else suite with a finally suite behind it; beyond
the innermost try body around the statement there is no clean-up code and no except clause with a name; beyond
the innermost with body there is no protected region either. -/
def raiseOk : List (Frame Ty) → Bool
  | [] => true
  | .body _ _ _ :: fs => fs.all Frame.outerOk
  | .withB _ :: fs => fs.all Frame.inert
  | .other _ f :: fs => !f && raiseOk fs
  | _ :: fs => raiseOk fs

/-- Where `return` may be used: not in an except clause or else suite with a finally suite behind it, and with
no with statement beyond the innermost block with clean-up code. -/
def retOk : List (Frame Ty) → Bool
  | [] => true
  | .body _ f _ :: fs => if f then fs.all Frame.chainOk else retOk fs
  | .withB _ :: fs => fs.all Frame.chainOk
  | .other _ f :: fs => !f && retOk fs
  | _ :: fs => retOk fs

/-- Up to the innermost loop body there is no else suite of a loop, no with statement and no except clause or
else suite with a finally suite behind it. -/
def preOk : List (Frame Ty) → Bool
  | [] => false
  | .loop _ :: _ => true
  | .loopElse _ :: _ => false
  | .withB _ :: _ => false
  | .other _ f :: fs => !f && preOk fs
  | _ :: fs => preOk fs

/-- Clean-up code up to the innermost loop. -/
def cleanupInLoop : List (Frame Ty) → Bool
  | [] => false
  | .loop _ :: _ => false
  | .body _ f _ :: fs => f || cleanupInLoop fs
  | _ :: fs => cleanupInLoop fs

/-- Not the protected region of a block with clean-up code. -/
def Frame.noCleanup : Frame Ty → Bool
  | .body _ f _ => !f
  | .withB _ => false
  | _ => true

/-- Where `break` and `continue` may be used: see `preOk`; moreover, if there is no clean-up code up to the
innermost loop then there is none beyond either. -/
def loopOk (fs : List (Frame Ty)) : Bool := preOk fs && (cleanupInLoop fs || fs.all Frame.noCleanup)

/-- Only simple statements that raise no exceptions, in sequence or under `if`. -/
def Stmt.simple : Stmt σ Val Exc Ty → Bool
  | .act _ => true
  | .seq s t => s.simple && t.simple
  | .ite _ _ s t => s.simple && t.simple
  | _ => false

mutual

/-- Contains `return`. -/
def Stmt.hasRet : Stmt σ Val Exc Ty → Bool
  | .ret _ => true
  | .seq s t => s.hasRet || t.hasRet
  | .ite _ _ s t => s.hasRet || t.hasRet
  | .loop _ _ s t => s.hasRet || t.hasRet
  | .tryS _ s hs _ t _ F => s.hasRet || hs.hasRet || t.hasRet || F.hasRet
  | .withS _ _ s _ => s.hasRet
  | _ => false

def Handlers.hasRet : Handlers σ Val Exc Ty → Bool
  | .nil => false
  | .cons _ _ s r => s.hasRet || r.hasRet

end

mutual

/-- Identifiers of the compound statements. -/
def Stmt.ids : Stmt σ Val Exc Ty → List Nat
  | .seq s t => s.ids ++ t.ids
  | .ite i _ s t => i :: (s.ids ++ t.ids)
  | .loop i _ s t => i :: (s.ids ++ t.ids)
  | .tryS i s hs _ t _ F => i :: (s.ids ++ (hs.ids ++ (t.ids ++ F.ids)))
  | .withS i _ s _ => i :: s.ids
  | _ => []

def Handlers.ids : Handlers σ Val Exc Ty → List Nat
  | .nil => []
  | .cons _ _ s r => s.ids ++ r.ids

end

mutual

/-- All calls, returns and loop jumps are at good positions, and a finally suite is simple if its try statement
contains `return` elsewhere. -/
def ok : List (Frame Ty) → Stmt σ Val Exc Ty → Bool
  | _, .act _ => true
  | fs, .call _ => raiseOk fs
  | fs, .seq s t => ok fs s && ok fs t
  | fs, .ite _ _ s t => ok fs s && ok fs t
  | fs, .loop i _ s t => ok (.loop i :: fs) s && ok (.loopElse i :: fs) t
  | fs, .ret _ => retOk fs
  | fs, .brk => loopOk fs
  | fs, .cont => loopOk fs
  | fs, .tryS i s hs u t f F =>
    ok (.body i f hs.heads :: fs) s && okHandlers i f fs hs && (!u || ok (.other i f :: fs) t) &&
      (!f || (ok (.final i :: fs) F && (F.simple || !(s.hasRet || hs.hasRet || t.hasRet))))
  | fs, .withS i _ s _ => ok (.withB i :: fs) s

def okHandlers (i : Nat) (f : Bool) (fs : List (Frame Ty)) : Handlers σ Val Exc Ty → Bool
  | .nil => true
  | .cons _ _ s r => ok (.other i f :: fs) s && okHandlers i f fs r

end

end Nagini.Cfg
