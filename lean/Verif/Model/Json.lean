import Verif.Model.Hier
import Verif.Model.Query
/-!
# Model of JSON serialization, `/repo/pawpaw/ito.py:423-512`

The text form is not modelled: `json.loads(json.dumps(d))` is taken to give back the document `d` made
of dictionaries, lists, strings, integers and `None`, calling the object hook on inner dictionaries
first (the hook returns those unchanged: they have no `__type__`, `/repo/pawpaw/ito.py:493-494`).
`__type__` and `__version__` are written and compared by the same program and are left out.
-/
namespace Pawpaw
namespace Json
open Query

/-- The dictionary of `_ItoEncoder`: `span`, `desc`, and `children` if written; `/repo/pawpaw/ito.py:428-436`. -/
inductive IDoc where
  | mk (span : Span) (desc : Option String) (children : Option (List IDoc))

/-- The dictionary of `JsonEncoder`: `string` unless stringless, `path`, `ito`; `/repo/pawpaw/ito.py:460-478`. -/
structure JDoc where
  string : Option (List Char)
  path : List Char
  ito : IDoc

mutual
/-- `_ItoEncoder(full_tree=True).default(o)`, `/repo/pawpaw/ito.py:428-436` -/
def itoDoc : Node → IDoc
  | .mk s d _ ks => .mk s d (some (itoDocs ks))
/-- `[self.default(c) for c in o.children]`, `/repo/pawpaw/ito.py:434` -/
def itoDocs : List Node → List IDoc
  | [] => []
  | k :: ks => itoDoc k :: itoDocs ks
end

/-- `_ItoEncoder(full_tree=False).default(o)`, `/repo/pawpaw/ito.py:428-436` -/
def itoDocFlat : Node → IDoc
  | .mk s d _ _ => .mk s d none

variable {V : Type} [DecidableEq V]

/-- `JsonEncoder(stringless, full_tree).default(o)` for the node `o` at path `x`, `/repo/pawpaw/ito.py:460-478`.
`None._span` is an `AttributeError`. -/
def encode (X : Ext) (env : Env V) (stringless fullTree : Bool) (x : Path) : Except PyErr JDoc :=
  let string := if stringless then none else some env.string
  if fullTree then
    match Query.find X env ['.', '.', '.', '.'] x with
    | .error e => .error e
    | .ok none => .error .attributeError
    | .ok (some b) =>
      match env.tree.get? b with
      | none => .error .attributeError
      | some n => .ok ⟨string, pathText x, itoDoc n⟩
  else
    match env.tree.get? x with
    | none => .error .attributeError
    | some n => .ok ⟨string, ['.'], itoDocFlat n⟩

mutual
/-- `_ItoDecoderHook(string)(obj)`, `/repo/pawpaw/ito.py:484-488`; `len` is the length of the string.
Simplification: all children are decoded before the first is added (only the exception raised could
differ, and both kinds are `ValueError`). -/
def decodeIto (len : Nat) : IDoc → Except PyErr Node
  | .mk s d none => .ok (.mk (Span.fromIndices len (some s.start) (some s.stop)) d none [])
  | .mk s d (some cs) =>
    match decodeItos len cs with
    | .error e => .error e
    | .ok ks =>
      match Kids.hierAll none (Span.fromIndices len (some s.start) (some s.stop)) [] ks with
      | .error e => .error e
      | .ok ks' => .ok (.mk (Span.fromIndices len (some s.start) (some s.stop)) d none ks')
/-- `(self(c) for c in children)`, `/repo/pawpaw/ito.py:487` -/
def decodeItos (len : Nat) : List IDoc → Except PyErr (List Node)
  | [] => .ok []
  | c :: cs =>
    match decodeIto len c with
    | .error e => .error e
    | .ok k =>
      match decodeItos len cs with
      | .error e => .error e
      | .ok ks => .ok (k :: ks)
end

/-- `JsonDecoderHook(string)(obj)`, `/repo/pawpaw/ito.py:494-512`: the string and the tree built, and the
path of the node returned in it (`None` when `find` finds nothing).  The body of `:503-508` is that of
`_ItoDecoderHook.__call__`. -/
def decode (X : Ext) (string : Option (List Char)) (doc : JDoc) :
    Except PyErr (List Char × Node × Option Path) :=
  match doc.string.or string with
  | none => .error .valueError
  | some s =>
    match decodeIto s.length doc.ito with
    | .error e => .error e
    | .ok t =>
      match Query.find X (⟨t, s, fun _ => .error .nameError, none, none⟩ : Env Nat) doc.path [] with
      | .error e => .error e
      | .ok r => .ok (s, t, r)

end Json
end Pawpaw
