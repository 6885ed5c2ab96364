import Verif.Model.Xml

/-!
# Model of the generic engine `urdf_parser_py/xml_reflection/core.py`

Line numbers refer to `/repo/src/pytorch_kinematics/urdf_parser_py/xml_reflection/core.py`;
`BA` = `basics.py` next to it.

`Model/Urdf.lean` and `Model/Sdf.lean` model the readers of the classes one by one. Here the engine itself is
modelled: classes are tables of parameters (`Cls`), `Reflection.set_from_xml` interprets a table to read an
object, `Reflection.add_to_xml` to write one. `Lemmas/ReflectUrdf.lean` proves that both models read the same.

Simplifications.
* Reading returns `none` for every exception (they all end `from_xml_string`); the paths, which only occur in
  messages, and the messages on stderr are left out, and so is `parent_cls` (no table uses it).
* A Python `int` and the `float` of the same value are one number.
* The lists `links`, `visuals`, … of an object are not stored: they are the entries of `aggregate_order` with
  the tag, as `add_aggregate` (l.639-644) keeps them. The maps of `Robot` are functions of it as well.
* `write_xml` of a value dispatches on the class of the value. The model writes values of the class that the
  table names; a value of another class is `unmodelled`.
-/

namespace PK.Reflect
open PK

/-- Attribute values of description objects. An object is its class, its attributes and `aggregate_order` with
`aggregate_type` (l.633-644). -/
inductive PVal where
  | none
  | bool (b : Bool)
  | str (s : Name)
  | num (x : Fl)
  | vec (l : List Fl)
  | raw (x : Xml)
  | obj (cls : Name) (fields : Name → Option PVal) (order : List (Name × PVal))

/-- Python's `float(str)` and `str(float)`. -/
structure Fmt where
  parse : NumParser
  text : Fl → Name

/-- lxml `node.set(key, value)` -/
def Xml.set : Xml → Name → Name → Xml
  | .elem t as x cs, k, v => .elem t (if (as.lookup k).isSome then as.map fun a => if a.1 = k then (k, v) else a else as ++ [(k, v)]) x cs
  | .comment, _, _ => .comment
/-- lxml `node.text = s` -/
def Xml.setText : Xml → Name → Xml
  | .elem t as _ cs, s => .elem t as (some s) cs
  | .comment, _ => .comment
/-- lxml `node.append(child)` -/
def Xml.append : Xml → Xml → Xml
  | .elem t as x cs, c => .elem t as x (cs ++ [c])
  | .comment, _ => .comment
/-- `etree.Element(tag)` / `etree.SubElement(doc, tag)` (BA l.19-28) before anything is added to it. -/
def Xml.fresh (tag : Name) : Xml := .elem tag [] none []

/-- l.129-146 `ValueType`: reading from an attribute value or from a node, writing to an attribute value or to a
node. Writing to a node also returns the value as it is afterwards (`RawType.write_xml` changes it). -/
structure VType where
  fromString : Option Name → Option PVal
  toString : PVal → Except Err Name
  fromXml : Xml → Option PVal
  writeXml : Xml → PVal → Except Err (Xml × PVal)

/-- l.132-142 the methods of `ValueType` that a subclass inherits: `from_xml` reads `node.text`, `write_xml` sets
it. -/
def VType.ofString (r : Option Name → Option PVal) (w : PVal → Except Err Name) : VType where
  fromString := r
  toString := w
  fromXml n := r n.text
  writeXml n v := do
    let s ← w v
    .ok (Xml.setText n s, v)

/-- Python's `str(value)`; lists and objects not modelled. -/
def pyStr (F : Fmt) : PVal → Except Err Name
  | .str s => .ok s
  | .num x => .ok (F.text x)
  | .bool true => .ok n!"True"
  | .bool false => .ok n!"False"
  | .none => .ok n!"None"
  | _ => .error .unmodelled

/-- l.148-156 `BasicType(str)` -/
def strT (F : Fmt) : VType := .ofString (fun t => some (.str (readStr t))) (pyStr F)

/-- l.148-156 `BasicType(float)`; `float(None)` is a TypeError -/
def floatT (F : Fmt) : VType :=
  .ofString (fun t => t.bind fun s => (F.parse s).map .num) (pyStr F)

/-- l.148-156 `BasicType(bool)`: `bool(text)` is false for `None` and the empty text only -/
def boolT (F : Fmt) : VType :=
  .ofString (fun t => some (.bool (match t with | none => false | some s => !s.isEmpty))) (pyStr F)

/-- l.160-161 `' '.join(values)` -/
def joinSp : List Name → Name
  | [] => []
  | [w] => w
  | w :: ws => w ++ ' ' :: joinSp ws

/-- l.170-186 `VectorType(count)`: the assertions on the length are ValueErrors here; entries that are not
numbers are a TypeError of no concern here -/
def vecT (F : Fmt) (count : ℕ) : VType :=
  .ofString
    (fun t => t.bind fun s => if (pySplit s).length = count then ((pySplit s).mapM F.parse).map .vec else none)
    (fun v => match v with
      | .vec l => if l.length = count then .ok (joinSp (l.map F.text)) else .error .valueError
      | _ => .error .typeError)

/-- l.189-204 `RawType`: reading keeps the node itself; writing *moves* its children (lxml's `append` takes an
element out of its old parent), except comments, to the new node, and copies the attributes. The text is not
copied. -/
def rawT : VType where
  fromString _ := none
  toString _ := .error .attributeError
  fromXml n := some (.raw n)
  writeXml n v := match v with
    | .raw x =>
      let moved := x.children.foldl Xml.append n
      .ok (x.attrs.foldl (fun m a => Xml.set m a.1 a.2) moved,
        .raw (match x with
          | .elem t as tx cs => .elem t as tx (cs.filter fun | .comment => true | .elem .. => false)
          | .comment => .comment))
    | _ => .error .attributeError

/-- l.207-223 `SimpleElementType(attribute, value_type)` -/
def simpleT (key : Name) (vt : VType) : VType where
  fromString _ := none
  toString _ := .error .attributeError
  fromXml n := vt.fromString (n.attr key)
  writeXml n v := do
    let s ← vt.toString v
    .ok (Xml.set n key s, v)

/-- l.289-395 `Param`: an `Attribute`, `Element` or `AggregateElement`; `var` is the Python attribute, equal to
the XML name for all attributes and scalar elements of both tables. -/
structure Param where
  xmlVar : Name
  vt : VType
  required : Bool := true
  dflt : PVal := .none
  var : Name := xmlVar

/-- l.406-458 `Reflection` with the rest of the class: the parameters split into attributes, scalar elements and
aggregates (l.420-458), what `__init__()` without arguments assigns, and `check_valid`. XML names are distinct
within a table, so `attribute_map` and `element_map` are searches. -/
structure Cls where
  name : Name
  tag : Option Name := none
  attributes : List Param := []
  scalars : List Param := []
  aggregates : List Param := []
  init : List (Name × PVal) := []
  check : PVal → Bool := fun _ => true

/-- an object under construction: its attributes and `aggregate_order` -/
structure Obj where
  fields : Name → Option PVal
  order : List (Name × PVal)

/-- `setattr(obj, var, value)` -/
def Obj.set (o : Obj) (var : Name) (v : PVal) : Obj :=
  { o with fields := fun k => if k = var then some v else o.fields k }

/-- the parameter with this XML name, `attribute_map.get` / `element_map.get` -/
def paramOf (ps : List Param) (k : Name) : Option Param := ps.find? fun p => p.xmlVar == k

namespace Cls
variable (C : Cls)

/-- l.489-504 one attribute of the node -/
def readAttr (n : Xml) (s : Obj × List Name) (k : Name) : Option (Obj × List Name) :=
  match paramOf C.attributes k with
  | none => some s
  | some p => do
    let t ← n.attr k
    let v ← p.vt.fromString (some t)
    some (s.1.set p.var v, s.2.erase k)

/-- l.507-521 one child of the node -/
def readChild (s : Obj × List Name) (c : Xml) : Option (Obj × List Name) :=
  match paramOf C.aggregates c.tag with
  | some p => do
    let v ← p.vt.fromXml c
    some ({ s.1 with order := s.1.order ++ [(c.tag, v)] }, s.2)
  | none => match paramOf C.scalars c.tag with
    | some p =>
      if c.tag ∈ s.2 then do
        let v ← p.vt.fromXml c
        some (s.1.set p.var v, s.2.erase c.tag)
      else some s
    | none => some s

/-- l.314-318, l.527-541 `set_default` for the names that were not set -/
def setDefaults (ps : List Param) (o : Obj) (unset : List Name) : Option Obj :=
  unset.foldlM (fun o k => match paramOf ps k with
    | none => some o
    | some p => if p.required then none else some (o.set p.var p.dflt)) o

/-- l.460-549 `Reflection.set_from_xml` on a new object -/
def setFromXml (n : Xml) : Option Obj := do
  let s ← (n.attrs.map Prod.fst).foldlM (C.readAttr n) (⟨fun k => C.init.lookup k, []⟩, C.attributes.map Param.xmlVar)
  let t ← n.children.foldlM C.readChild (s.1, C.scalars.map Param.xmlVar)
  let o ← setDefaults C.attributes t.1 s.2
  setDefaults C.scalars o t.2

/-- l.598-606 `Object.read_xml` on `cls()` (l.230-233) -/
def read (n : Xml) : Option PVal := do
  let o ← C.setFromXml n
  let v := PVal.obj C.name o.fields o.order
  if C.check v then some v else none

/-- l.336-345, l.364-372 the value to write: `None` stands for the default, and is an exception for a required
parameter -/
def valueOf (p : Param) : Option PVal → Except Err (Option PVal)
  | none => .error .attributeError
  | some .none => if p.required then .error .runtimeError else
    match p.dflt with
    | .none => .ok none
    | d => .ok (some d)
  | some v => .ok (some v)

/-- l.335-345 `Attribute.add_to_xml` -/
def addAttr (o : Obj) (n : Xml) (p : Param) : Except Err Xml := do
  let v ← valueOf p (o.fields p.var)
  match v with
  | none => .ok n
  | some v => do
    let s ← p.vt.toString v
    .ok (Xml.set n p.xmlVar s)

/-- l.364-379 `Element.add_to_xml` (which reads the attribute named like the element, l.365); the object's value
may be changed by writing it -/
def addScalar (s : Obj × Xml) (p : Param) : Except Err (Obj × Xml) := do
  let v ← valueOf p (s.1.fields p.xmlVar)
  match v with
  | none => .ok s
  | some v => do
    let (c, v') ← p.vt.writeXml (Xml.fresh p.xmlVar) v
    .ok (match s.1.fields p.xmlVar with
      | some .none => s.1
      | _ => s.1.set p.xmlVar v', Xml.append s.2 c)

/-- l.646-650 one step of `add_aggregates_to_xml` -/
def addAggregate (s : List (Name × PVal) × Xml) (a : Name × PVal) : Except Err (List (Name × PVal) × Xml) :=
  match paramOf (C.aggregates ++ C.scalars) a.1 with
  | none => .error .keyError
  | some p => do
    let (c, v') ← p.vt.writeXml (Xml.fresh p.xmlVar) a.2
    .ok (s.1 ++ [(a.1, v')], Xml.append s.2 c)

/-- l.551-560, l.578-582 `Object.write_xml`, `Reflection.add_to_xml`; the assertions of `check_valid` are
ValueErrors here. Returns the node and the object afterwards. -/
def write (n : Xml) (v : PVal) : Except Err (Xml × PVal) :=
  match v with
  | .obj cls fields order =>
    if cls = C.name then
      if C.check v then do
        let n1 ← C.attributes.foldlM (addAttr ⟨fields, order⟩) n
        let (o2, n2) ← C.scalars.foldlM addScalar (⟨fields, order⟩, n1)
        if C.aggregates.isEmpty then .ok (n2, .obj cls o2.fields order)
        else do
          let (ord, n3) ← order.foldlM C.addAggregate ([], n2)
          .ok (n3, .obj cls o2.fields ord)
      else .error .valueError
    else .error .unmodelled
  | _ => .error .attributeError

/-- l.584-590 `Object.to_xml`; without a tag the assertion fails -/
def toXml (v : PVal) : Except Err (Xml × PVal) :=
  match C.tag with
  | none => .error .valueError
  | some t => C.write (Xml.fresh t) v

/-- l.226-236 `ObjectType(cls)` -/
def type : VType where
  fromString _ := none
  toString _ := .error .attributeError
  fromXml := C.read
  writeXml := C.write

end Cls

/-- the class name of an object -/
def PVal.cls : PVal → Option Name
  | .obj c _ _ => .some c
  | _ => .none

/-- urdf.py l.136-154, sdf.py l.96-113 `GeometricType` around a `FactoryType` (core.py l.239-263) with this map
from tags to classes -/
def geometricT (types : List (Name × Cls)) : VType where
  fromString _ := none
  toString _ := .error .attributeError
  fromXml n := match n.children with
    | [c] => (types.lookup c.tag).bind fun C => C.read c
    | _ => none
  writeXml n v := match types.find? fun t => some t.2.name == v.cls with
    | none => .error .runtimeError
    | some t => do
      let (c, v') ← t.2.write (Xml.fresh t.1) v
      .ok (Xml.append n c, v')

/-- l.266-286 `DuckTypedFactory` over classes: the first that reads without exception -/
def duckT (types : List Cls) : VType where
  fromString _ := none
  toString _ := .error .attributeError
  fromXml n := types.findSome? fun C => C.read n
  writeXml n v := match types.find? fun C => some C.name == v.cls with
    | none => .error .unmodelled
    | some C => C.write n v

end PK.Reflect
