import Verif.Model.Frame

/-!
# Model of `urdf_parser_py/xml_reflection/core.py`

Line numbers refer to `/repo/src/pytorch_kinematics/urdf_parser_py/xml_reflection/core.py`.

The document is taken after `lxml.etree.fromstring` (l.608), as a tree of elements and comments.
Python's `float` is a parameter (`NumParser`): every theorem holds for every number syntax.
All exceptions raised while reading are one error `parseError`: `core.py` wraps most of them in
`ParseError` (l.502-505, l.528-540, l.592-599), the few unwrapped ones (`AssertionError`, `Exception`,
`TypeError`, `AttributeError` raised by value types of child elements, l.514-519) also end
`from_xml_string`.
-/

namespace PK

/-- `n!"abc"` is the list of characters `['a', 'b', 'c']`. -/
macro:max "n!" s:str : term => do
  let cs := s.getString.toList.toArray.map Lean.Syntax.mkCharLit
  `([ $[$cs],* ])

/-- An XML node: an element (tag, attributes, text, children) or a comment. Processing instructions,
namespaces and tail texts are not modelled. -/
inductive Xml where
  | elem (tag : Name) (attrs : List (Name × Name)) (text : Option Name) (children : List Xml)
  | comment

namespace Xml
/-- `node.tag` (comments are filtered out before it is used) -/
def tag : Xml → Name | elem t _ _ _ => t | comment => []
/-- `node.attrib` -/
def attrs : Xml → List (Name × Name) | elem _ a _ _ => a | comment => []
/-- `node.text` -/
def text : Xml → Option Name | elem _ _ t _ => t | comment => none
/-- basics.py l.35-41 `xml_children(node)`: the children that are not comments. -/
def children : Xml → List Xml
  | elem _ _ _ cs => cs.filter fun | comment => false | elem .. => true
  | comment => []
/-- `node.get(key)` / `node.attrib[key]`: attribute names are unique in XML. -/
def attr (n : Xml) (key : Name) : Option Name := n.attrs.lookup key
/-- l.508-521 for a scalar element: the first child with the tag is read, later ones only print an
error message (l.520). -/
def scalar (n : Xml) (tag : Name) : Option Xml := n.children.find? fun c => c.tag == tag
/-- l.508-515 for an aggregate element: all children with the tag, in document order. -/
def aggregate (n : Xml) (tag : Name) : List Xml := n.children.filter fun c => c.tag == tag
end Xml

/-- Python's `float(str)`: `none` is `ValueError`. -/
abbrev NumParser := Name → Option Fl

/-- ASCII whitespace of Python's `str.split()` (other Unicode spaces not modelled). -/
def isSpace (c : Char) : Bool :=
  c == ' ' || c == '\t' || c == '\n' || c == '\r' || c == '\x0b' || c == '\x0c'

/-- the words of `text.split()`, with the characters of the unfinished word -/
def splitGo : Name → Name → List Name
  | cur, [] => if cur.isEmpty then [] else [cur.reverse]
  | cur, c :: cs =>
    if isSpace c then (if cur.isEmpty then splitGo [] cs else cur.reverse :: splitGo [] cs)
    else splitGo (c :: cur) cs

/-- l.163-164 `ListType.from_string`: `text.split()`. -/
def pySplit (s : Name) : List Name := splitGo [] s

/-- l.155-156 `BasicType(float).from_string`; `float(None)` is a TypeError. -/
def readFloat (num : NumParser) : Option Name → Except Err Fl
  | none => .error .parseError
  | some s => match num s with
    | none => .error .parseError
    | some x => .ok x

/-- one entry of a vector: `float(word)`; NaN and infinities are not represented in vectors -/
def readReal (num : NumParser) (s : Name) : Except Err ℝ :=
  match num s with
  | none => .error .parseError
  | some (.fin x) => .ok x
  | some _ => .error .unmodelled

/-- l.155-156 `BasicType(str).from_string`: `str(None)` is the text `None`. -/
def readStr : Option Name → Name
  | none => n!"None"
  | some s => s

/-- l.170-186 `VectorType(count).from_string`: split, check the length, convert;
`None.split()` is an AttributeError. -/
def readVec (num : NumParser) (count : ℕ) : Option Name → Except Err (List ℝ)
  | none => .error .parseError
  | some s =>
    let raw := pySplit s
    if raw.length = count then raw.mapM (readReal num) else .error .parseError

/-- a vector of three numbers as `V3` -/
def readV3 (num : NumParser) (t : Option Name) : Except Err V3 := do
  let l ← readVec num 3 t
  pure fun i => l.getD i 0

/-- l.314-318 a required attribute or element that is missing. -/
def required {α : Type} : Option α → Except Err α
  | none => .error .parseError
  | some a => .ok a

/-- an optional attribute / element: `none` keeps the default of the caller, otherwise it is read -/
def optional {α β : Type} (o : Option α) (read : α → Except Err β) : Except Err (Option β) :=
  match o with
  | none => .ok none
  | some a => do
    let b ← read a
    pure (some b)

/-- required float attribute -/
def floatAttr (num : NumParser) (n : Xml) (k : Name) : Except Err Fl := do
  let s ← required (n.attr k)
  readFloat num (some s)

/-- required float element (SDF): text of the first child with the tag -/
def floatElem (num : NumParser) (n : Xml) (k : Name) : Except Err Fl := do
  let c ← required (n.scalar k)
  readFloat num c.text

end PK
