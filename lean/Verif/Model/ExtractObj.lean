import Verif.Model.Match
/-!
# Model of `Extract` objects and of `clone` of itorators

`/repo/pawpaw/arborform/itorator/regex_itorator.py`, `/repo/pawpaw/arborform/itorator/extract.py`, with `Ito.from_re` called as
`Extract` calls it. Arguments are of the annotated types; the regex engine is a parameter.
-/
namespace Pawpaw
namespace ExtractObj
open Match

/-- What the regex engine gives: the groups of a pattern, the matches in an Ito, and the spans of a group in a match. -/
structure Engine (R M S : Type) where
  pat : R → Pat
  finditer : R → S → List M
  spans : M → GK → List Span
  len : S → Nat

/-- `group_filter`, `/repo/pawpaw/arborform/itorator/regex_itorator.py:15`: a container of keys or a predicate. -/
inductive Filter (M : Type) where
  | keys (l : List GK)
  | pred (f : M → GK → Bool)

/-- `desc`, `/repo/pawpaw/arborform/itorator/extract.py:15`: a `str` or a function. -/
inductive DescArg (M : Type) where
  | str (s : String)
  | fn (f : M → GK → Option String)

variable {R M S : Type}

/-- The check of a group filter, `/repo/pawpaw/arborform/itorator/regex_itorator.py:39-46`,
`/repo/pawpaw/ito.py:150-160`. -/
def accepts (E : Engine R M S) (re : R) : Filter M → Except PyErr Unit
  | .keys l => validate (E.pat re) l
  | .pred _ => .ok ()

/-- `gf()`, `/repo/pawpaw/ito.py:152-157`. -/
def keysFor (E : Engine R M S) (re : R) (m : M) : Filter M → List GK
  | .keys l => l
  | .pred f => fromFilter (E.pat re) (f m)

/-- `df`, `/repo/pawpaw/ito.py:162-165`. -/
def descFor (m : M) (gk : GK) : DescArg M → Option String
  | .str s => some s
  | .fn f => f m gk

/-- `[*Ito.from_re(re, src, group_filter, desc, limit)]`, `/repo/pawpaw/ito.py:131-180`. -/
def fromRe (E : Engine R M S) (re : R) (src : S) (gf : Filter M) (desc : DescArg M) (limit : Option Int) :
    Except PyErr (List Node) :=
  match accepts E re gf with
  | .error e => .error e
  | .ok () => Match.fromRe (E.len src)
      ((E.finditer re src).map fun m => (keysFor E re m gf).map fun gk => (descFor m gk desc, E.spans m gk)) limit

/-- An `Extract`: the attributes `re`, `group_filter`, `limit`, and `desc` if it is there; `hidden` is `_desc`. -/
structure Obj (R M : Type) where
  re : R
  gf : Filter M
  limit : Option Int
  desc : Option (DescArg M)
  hidden : Option String

/-- `Extract(re, limit, desc, group_filter)`, `/repo/pawpaw/arborform/itorator/extract.py:12-29`,
`/repo/pawpaw/arborform/itorator/regex_itorator.py:13-22`. A `str` goes to `_desc`, a function to `desc`. -/
def make (E : Engine R M S) (re : R) (limit : Option Int) (desc : DescArg M) (gf : Filter M) : Except PyErr (Obj R M) :=
  match accepts E re gf with
  | .error e => .error e
  | .ok () =>
    match desc with
    | .str s => .ok ⟨re, gf, limit, none, some s⟩
    | .fn f => .ok ⟨re, gf, limit, some (.fn f), none⟩

/-- An assignment to an attribute. -/
inductive Op (R M : Type) where
  | re (r : R)
  | gf (f : Filter M)
  | limit (l : Option Int)
  | desc (d : DescArg M)

/-- The setters, `/repo/pawpaw/arborform/itorator/regex_itorator.py:28-46`; `limit` and `desc` are plain attributes. -/
def assign (E : Engine R M S) (x : Obj R M) : Op R M → Except PyErr (Obj R M)
  | .re r => .ok { x with re := r }
  | .gf f =>
    match accepts E x.re f with
    | .error e => .error e
    | .ok () => .ok { x with gf := f }
  | .limit l => .ok { x with limit := l }
  | .desc d => .ok { x with desc := some d }

/-- Assignments one after the other; one that raises leaves the object as it is. -/
def after (E : Engine R M S) (x : Obj R M) : List (Op R M) → Obj R M
  | [] => x
  | op :: ops =>
    match assign E x op with
    | .ok y => after E y ops
    | .error _ => after E x ops

/-- `_transform(ito)`, `/repo/pawpaw/arborform/itorator/extract.py:34-35`: `self.desc` raises `AttributeError` if there is
none. -/
def run (E : Engine R M S) (x : Obj R M) (src : S) : Except PyErr (List Node) :=
  match x.desc with
  | none => .error .attributeError
  | some d => fromRe E x.re src x.gf d x.limit

end ExtractObj
end Pawpaw
