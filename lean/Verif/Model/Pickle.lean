import Verif.Py.Basic

/-
Model of `AffineScalarFunc.__getstate__` and `__setstate__` (core.py 2376-2451) for objects of the classes of the package and
of their subclasses, and of the part of Python's object model that they rely on: slots, instance dictionaries, look-up of
attributes.
-/

set_option autoImplicit false

namespace Unc

/-- The `__slots__` of a class. -/
inductive Slots where
  /-- the class has no `__slots__` of its own -/
  | absent
  /-- a single name, as a string -/
  | name (s : String)
  /-- a list, a tuple... of names -/
  | names (l : List String)
  /-- an iterator: creating the class exhausts it -/
  | iterator (l : List String)

/-- The names that Python uses for creating the class. -/
def Slots.declared : Slots → List String
  | .absent => []
  | .name s => [s]
  | .names l => l
  | .iterator l => l

/-- What the loop on the classes (core.py 2416-2428) finds for a class: a string is a single name; iterating over an
exhausted iterator gives nothing. A class that has no `__slots__` of its own gives the names of one of its parents, which
the loop finds in any case. -/
def Slots.found : Slots → List String
  | .absent => []
  | .name s => [s]
  | .names l => l
  | .iterator _ => []

/-- A class: its name, its slots, and its other attributes that are neither slots nor properties (methods, constants...).
Properties are not modelled. -/
structure PyClass (V : Type) where
  name : String
  slots : Slots
  consts : List (String × V)

/-- Private names, in the body of a class: `__x` is replaced by `_Class__x`. -/
def mangle (cls name : String) : String :=
  if "__".toList.isPrefixOf name.toList && !"__".toList.isSuffixOf name.toList && cls.toList.any (· ≠ '_') then
    String.ofList ('_' :: cls.toList.dropWhile (· = '_') ++ name.toList)
  else name

section
variable {V : Type}

/-- The attributes that are stored in slots. -/
def PyClass.slotAttrs (c : PyClass V) : List String :=
  (c.slots.declared.filter fun n => n ≠ "__dict__" ∧ n ≠ "__weakref__").map (mangle c.name)

/-- Instances have a `__dict__` if one of the classes has no `__slots__`, or has a slot of this name. -/
def hasDict (mro : List (PyClass V)) : Bool :=
  mro.any fun c => match c.slots with
    | .absent => true
    | s => "__dict__" ∈ s.declared

/-- Instances have a `__weakref__` in the same cases. -/
def hasWeakref (mro : List (PyClass V)) : Bool :=
  mro.any fun c => match c.slots with
    | .absent => true
    | s => "__weakref__" ∈ s.declared

/-- What is found for a name in a class. -/
inductive ClassAttr (V : Type) where
  | slot
  | const (x : V)

/-- Look-up of a name in the classes, in the order of resolution (`type(x).mro()`, without `object`). -/
def classLookup : List (PyClass V) → String → Option (ClassAttr V)
  | [], _ => none
  | c :: mro, n =>
    if n ∈ c.slotAttrs then some .slot
    else match c.consts.lookup n with
      | some x => some (.const x)
      | none => classLookup mro n

/-- An instance dictionary. -/
abbrev IDict (V : Type) := List (String × V)

/-- `d[n] = x` -/
def IDict.set (d : IDict V) (n : String) (x : V) : IDict V :=
  match d with
  | [] => [(n, x)]
  | (m, y) :: d => if m = n then (m, x) :: d else (m, y) :: IDict.set d n x

/-- An object: its classes, the values of its slots, and the place of its `__dict__` in memory, if any. (If several classes
declare the same slot, only the first one can be reached by attributes: the others are not modelled.) -/
structure Inst (V : Type) where
  mro : List (PyClass V)
  slots : String → Option V
  dict : Option Nat

/-- Value of an attribute. -/
inductive AttrVal (V : Type) where
  | val (x : V)
  /-- a `__dict__`, at some place in memory -/
  | dict (r : Nat)
  /-- the value of `__weakref__` -/
  | weakref

/-- The memory: instance dictionaries. -/
abbrev DictHeap (V : Type) := List (IDict V)

/-- An item of the instance dictionary. -/
def Inst.inDict (h : DictHeap V) (o : Inst V) (n : String) : Option V :=
  o.dict.bind fun r => (h[r]?).bind fun d => d.lookup n

/-- `getattr(o, n)` -/
def Inst.getattr (h : DictHeap V) (o : Inst V) (n : String) : PyRes (AttrVal V) :=
  if n = "__dict__" then
    match o.dict with
    | some r => .ok (.dict r)
    | none => .error .attributeError
  else if n = "__weakref__" then
    if hasWeakref o.mro then .ok .weakref else .error .attributeError
  else
    match classLookup o.mro n with
    | some .slot =>
      match o.slots n with
      | some x => .ok (.val x)
      | none => .error .attributeError
    | some (.const x) => .ok (.val ((o.inDict h n).getD x))
    | none =>
      match o.inDict h n with
      | some x => .ok (.val x)
      | none => .error .attributeError

/-- `setattr(o, n, x)` -/
def Inst.setattr (h : DictHeap V) (o : Inst V) (n : String) (x : AttrVal V) : PyRes (DictHeap V × Inst V) :=
  if n = "__dict__" then
    match o.dict, x with
    | some _, .dict r => .ok (h, { o with dict := some r })
    | some _, _ => .error .typeError
    | none, _ => .error .attributeError
  else if n = "__weakref__" then .error .attributeError
  else
    match x with
    | .val y =>
      match classLookup o.mro n with
      | some .slot => .ok (h, { o with slots := fun m => if m = n then some y else o.slots m })
      | _ =>
        match o.dict with
        | some r => .ok (h.modify r (fun d => d.set n y), o)
        | none => .error .attributeError
    | _ => .error (.other 1)   -- not modelled

/-- The state of an object: a dictionary of attributes. -/
abbrev PickleState (V : Type) := List (String × AttrVal V)

/-- `all_attrs[n] = x` -/
def PickleState.set (d : PickleState V) (n : String) (x : AttrVal V) : PickleState V :=
  match d with
  | [] => [(n, x)]
  | (m, y) :: d => if m = n then (m, x) :: d else (m, y) :: PickleState.set d n x

/-- The loop on the slots (core.py 2431-2439). -/
def Inst.addSlots (h : DictHeap V) (o : Inst V) : List String → PickleState V → PyRes (PickleState V)
  | [], st => .ok st
  | n :: ns, st =>
    match o.getattr h n with
    | .ok x => o.addSlots h ns (PickleState.set st n x)
    | .error .attributeError => o.addSlots h ns st
    | .error e => .error e

/-- The first item of the state: `__dict__`, if the object has one (core.py 2403-2408). -/
def Inst.dictState (o : Inst V) : PickleState V :=
  match o.dict with
  | some r => [("__dict__", .dict r)]
  | none => []

/-- The names of all the slots (core.py 2411-2428), with repetitions. -/
def allSlots (mro : List (PyClass V)) : List String := mro.flatMap fun c => c.slots.found

/-- `o.__getstate__()` (core.py 2376-2441). The slots are in a set, whose order is arbitrary: `order`. -/
def Inst.getState (h : DictHeap V) (o : Inst V) (order : List String) : PyRes (PickleState V) :=
  o.addSlots h order o.dictState

/-- `o.__setstate__(state)` (core.py 2443-2451). -/
def Inst.setState (h : DictHeap V) (o : Inst V) : PickleState V → PyRes (DictHeap V × Inst V)
  | [] => .ok (h, o)
  | (n, x) :: st =>
    match o.setattr h n x with
    | .ok (h, o) => o.setState h st
    | .error e => .error e

/-- `cls.__new__(cls)`: a new object, with an empty `__dict__` if it has one. -/
def Inst.new (h : DictHeap V) (mro : List (PyClass V)) : DictHeap V × Inst V :=
  if hasDict mro then (h ++ [[]], ⟨mro, fun _ => none, some h.length⟩) else (h, ⟨mro, fun _ => none, none⟩)

/-- The same value, with the `__dict__` at another place. -/
def AttrVal.moveDict (k : Nat) : AttrVal V → AttrVal V
  | .dict _ => .dict k
  | x => x

/-- `pickle.loads(pickle.dumps(o))`, for values that are themselves equal to what pickle gives back: the state is saved, with a
copy of the instance dictionary (a weak reference cannot be saved), and set in a new object. -/
def Inst.pickle (h : DictHeap V) (o : Inst V) (order : List String) : PyRes (DictHeap V × Inst V) :=
  match o.getState h order with
  | .error e => .error e
  | .ok st =>
    let h' := match o.dict with
      | some r => h ++ [h[r]?.getD []]
      | none => h
    let st' : PickleState V := st.map fun p => (p.1, p.2.moveDict h.length)
    let (h'', o') := Inst.new h' o.mro
    o'.setState h'' st'

/-- `copy.copy(o)`, for a class that has no `__copy__`: the state is set in a new object, without copying it. -/
def Inst.copy (h : DictHeap V) (o : Inst V) (order : List String) : PyRes (DictHeap V × Inst V) :=
  match o.getState h order with
  | .error e => .error e
  | .ok st =>
    let (h', o') := Inst.new h o.mro
    o'.setState h' st

end

end Unc
