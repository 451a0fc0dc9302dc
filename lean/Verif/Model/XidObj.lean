import Verif.Model.Xid
/-
Identifiers as objects.  Elsewhere in the model an XID is its UUID (a value); here it is an object with
the field `__uuid`, which `set_uuid` replaces, and which events and ID attributes refer to.
Sources: src/opyenxes/id/XID.py, id/XIDFactory.py, model/XEvent.py, model/XAttributeID.py,
extension/std/XIdentityExtension.py.
-/
namespace Opy

/-- All XID objects in the order they were made (with their UUIDs), the XID object that each event
(`__id`, model/XEvent.py:18-25) and each ID attribute (`__value`, model/XAttributeID.py:15-17) refers to,
and how many UUIDs `uuid4()` has given out. -/
structure XidState where
  xids : List Uuid
  events : List Nat
  attrs : List Nat
  drawn : Nat
deriving DecidableEq, Repr

/-- Calls on identifiers; XIDs, events and attributes are named by the order in which they were made. -/
inductive XidCall where
  | create
  | make (u : Uuid)
  | parse (text : Str)
  | cloneXid (x : Nat)
  | setUuid (x : Nat) (u : Uuid)
  | newEvent (x : Option Nat)
  | setId (e x : Nat)
  | cloneEvent (e : Nat)
  | newAttr (x : Nat)
  | setValue (a x : Nat)
  | cloneAttr (a : Nat)
deriving DecidableEq, Repr

/-- The UUID of an XID: get_uuid, id/XID.py:29-35. -/
def XidState.uuid (s : XidState) (x : Nat) : Uuid := s.xids.getD x 0

/-- XID(u): id/XID.py:23-27 (a UUID is always true). -/
def XidState.newXid (s : XidState) (u : Uuid) : XidState := { s with xids := s.xids ++ [u] }

/-- XID(): id/XID.py:23-27, and XIDFactory.create_id, id/XIDFactory.py:13-20. -/
def XidState.drawXid (rnd : Nat → Uuid) (s : XidState) : XidState :=
  { s with xids := s.xids ++ [rnd s.drawn], drawn := s.drawn + 1 }

/-- One call.  `create`: XIDFactory.create_id; `make`: XID(u); `parse`: XID.parse, id/XID.py:12-21 (nothing is
made when it raises ValueError); `cloneXid`: XID.clone, id/XID.py:45-51; `setUuid`: XID.set_uuid, id/XID.py:37-43;
`newEvent`: XEvent(identity=x) or XEvent(), model/XEvent.py:18-25; `setId`: XEvent.set_id, model/XEvent.py:46-52;
`cloneEvent`: XEvent.clone, model/XEvent.py:27-36, where the identifier that the constructor draws is replaced by
another; `newAttr`: XAttributeID(key, x), model/XAttributeID.py:15-17; `setValue`: model/XAttributeID.py:27-33;
`cloneAttr`: model/XAttributeID.py:35-43.  `assign_id` of the extension (extension/std/XIdentityExtension.py:64-77) is
`cloneAttr` and then `setValue`. -/
def XidState.step (rnd : Nat → Uuid) (s : XidState) : XidCall → XidState
  | .create => s.drawXid rnd
  | .make u => s.newXid u
  | .parse text => match xidParse text with
    | some u => s.newXid u
    | none => s
  | .cloneXid x => s.newXid (s.uuid x)
  | .setUuid x u => { s with xids := s.xids.set x u }
  | .newEvent (some x) => { s with events := s.events ++ [x] }
  | .newEvent none => { s.drawXid rnd with events := s.events ++ [s.xids.length] }
  | .setId e x => { s with events := s.events.set e x }
  | .cloneEvent _ => { (s.drawXid rnd).drawXid rnd with events := s.events ++ [s.xids.length + 1] }
  | .newAttr x => { s with attrs := s.attrs ++ [x] }
  | .setValue a x => { s with attrs := s.attrs.set a x }
  | .cloneAttr a => { s.newXid (s.uuid (s.attrs.getD a 0)) with attrs := s.attrs ++ [s.xids.length] }

/-- A sequence of calls. -/
def XidState.run (rnd : Nat → Uuid) (s : XidState) (L : List XidCall) : XidState := L.foldl (XidState.step rnd) s

/-- Membership of an event in a `set` or among the keys of a `dict` (built-in): the entry keeps the hash that the
event had when it was added; XEvent.__hash__ and __eq__, model/XEvent.py:54-63. -/
def eventInSet (hash : Uuid → Int) (s : XidState) (set : List (Int × Nat)) (e : Nat) : Bool :=
  let id := fun e => s.uuid (s.events.getD e 0)
  set.any fun p => p.1 = hash (id e) && (p.2 = e || id p.2 = id e)

/-- `set.add(event)` (built-in). -/
def eventAdd (hash : Uuid → Int) (s : XidState) (set : List (Int × Nat)) (e : Nat) : List (Int × Nat) :=
  if eventInSet hash s set e then set else set ++ [(hash (s.uuid (s.events.getD e 0)), e)]

end Opy
