import Verif.Text
/-
Model of /repo/src/v8unpack/ext_exception.py:16-126 (class ExtException: __new__, __init__, add_parent_to_stack, add_sys_exc_to_stack).
Parents given as dictionaries (lines 32-42, 81-87) and `action` given as an object (lines 54-56) are not modelled: nothing in v8unpack uses them.
-/
namespace V8.ExtExc

/-- the class of an application error: ExtException itself or one of its subclasses, with its default message `_message` -/
inductive Cls where
  | base
  | sub (name : Text) (message : Option Text)
deriving DecidableEq, Repr

/-- class attribute `_message`: line 19 -/
def Cls.default : Cls → Option Text
  | .base => none
  | .sub _ m => m

/-- one element of the attribute `stack`; the traceback is a text -/
structure Entry where
  action : Option Text
  message : Option Text
  detail : Option Text
  traceback : Option Text
deriving DecidableEq

/-- an instance of ExtException or of a subclass; `dump` maps names to values -/
structure Exc where
  cls : Cls
  code : Option Nat
  message : Option Text
  detail : Option Text
  action : Option Text
  newMsg : Bool
  dump : List (Text × Text)
  stack : List Entry
deriving DecidableEq

/-- the arguments of one `raise Cls(parent=..., ...)` -/
structure Args where
  cls : Cls
  code : Option Nat
  message : Option Text
  detail : Option Text
  action : Option Text
  dump : List (Text × Text)

/-- Python truth of an optional string -/
def given : Option Text → Bool
  | some (_ :: _) => true
  | _ => false

/-- the class of the new object: lines 22-31, 43 -/
def newCls (a : Args) (parent : Option Exc) : Cls :=
  match parent with
  | some p => if p.cls ≠ .base ∧ a.message = none ∧ a.cls = .base then p.cls else a.cls
  | none => a.cls

/-- `self.stack[-1].get('action') == parent.action` -/
def lastIs (stack : List Entry) (action : Option Text) : Bool := match stack.getLast? with
  | some e => decide (e.action = action)
  | none => false

/-- add_parent_to_stack: lines 106-126; `info` is what get_sys_exc_info returns -/
def addParent (info : Option Entry) (p : Exc) : List Entry :=
  if given p.action = false ∨ lastIs p.stack p.action then p.stack
  else p.stack ++ [{ action := p.action
                     message := if p.newMsg then p.message else none
                     detail := if p.newMsg ∧ given p.detail then p.detail else none
                     traceback := if p.stack = [] then info.bind (·.traceback) else none }]

/-- lines 67-70 and 75-76: the names of the parent that are not there yet -/
def mergeDump (own parent : List (Text × Text)) : List (Text × Text) :=
  own ++ parent.filter (fun kv => (own.lookup kv.1).isNone)

/-- `if not self.message: self.message = self._message`: lines 93-94 -/
def orDefault (c : Cls) (m : Option Text) : Option Text := if given m then m else c.default

/-- `raise Cls(message=..., ...)` without a parent: lines 45-62, 93-95 -/
def raise (a : Args) : Exc :=
  { cls := a.cls, code := a.code, message := orDefault a.cls a.message, detail := a.detail, action := a.action,
    newMsg := given a.message, dump := a.dump, stack := [] }

/-- `raise Cls(parent=err, ...)` where `err` is an application error: lines 63-76, 93-95 -/
def wrap (info : Option Entry) (a : Args) (p : Exc) : Exc :=
  let c := newCls a (some p)
  { cls := c
    code := if given a.message then a.code else p.code
    message := orDefault c (if given a.message then a.message else p.message)
    detail := if given a.message then a.detail else p.detail
    action := a.action
    newMsg := given a.message
    dump := mergeDump a.dump p.dump
    stack := addParent info p }

/-- `raise Cls(parent=err, ...)` where `err` is any other exception: lines 77-82, 128-137; `text` is `str(err)`; `info` is what
get_sys_exc_info returns -/
def wrapPlain (info : Option Entry) (a : Args) (text : Text) : Exc :=
  { cls := a.cls
    code := a.code
    message := orDefault a.cls (if given a.message then a.message else some "Unknown Error".toList)
    detail := if given a.detail then a.detail else some text
    action := a.action
    newMsg := given a.message
    dump := a.dump
    stack := match info with
      | none => []
      | some e => [if given a.action then { e with action := a.action } else e] }

/-- an error that goes up through several handlers, the innermost first -/
def wraps : List (Option Entry × Args) → Exc → Exc
  | [], e => e
  | (i, a) :: r, e => wraps r (wrap i a e)

end V8.ExtExc
