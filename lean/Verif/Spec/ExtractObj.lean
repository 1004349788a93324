import Verif.Model.ExtractObj
/-!
# What was given last to an `Extract`

Only the types of arguments are taken from the model.
-/
namespace ExtractSpec
open Pawpaw ExtractObj Match

variable {R M : Type}

/-- The pattern given last. -/
def lastRe (r : R) : List (Op R M) → R
  | [] => r
  | .re r' :: ops => lastRe r' ops
  | _ :: ops => lastRe r ops

/-- The limit given last. -/
def lastLimit (l : Option Int) : List (Op R M) → Option Int
  | [] => l
  | .limit l' :: ops => lastLimit l' ops
  | _ :: ops => lastLimit l ops

/-- The descriptor given last. -/
def lastDesc (d : DescArg M) : List (Op R M) → DescArg M
  | [] => d
  | .desc d' :: ops => lastDesc d' ops
  | _ :: ops => lastDesc d ops

/-- `desc` is assigned at least once. -/
def Assigned (ops : List (Op R M)) : Prop := ∃ d, Op.desc d ∈ ops

/-- The keys denote groups of the pattern, no two of them the same. -/
def Fits (p : Pat) (l : List GK) : Prop := ∃ is : List Nat, l.map (gkIndex p) = is.map some ∧ is.Nodup

open Classical in
/-- The group filter given last among those that fit the pattern of their time: a predicate always does. -/
noncomputable def lastFilter (pat : R → Pat) (r : R) (g : Filter M) : List (Op R M) → Filter M
  | [] => g
  | .re r' :: ops => lastFilter pat r' g ops
  | .gf (.pred f) :: ops => lastFilter pat r (.pred f) ops
  | .gf (.keys l) :: ops => if Fits (pat r) l then lastFilter pat r (.keys l) ops else lastFilter pat r g ops
  | .limit _ :: ops => lastFilter pat r g ops
  | .desc _ :: ops => lastFilter pat r g ops

/-- The key of group `i`: its name if it has one, else its number. -/
def keyOf (p : Pat) (i : Nat) : GK :=
  match p.groupindex.find? (fun e => e.2 = i) with
  | some e => .name e.1
  | none => .idx i

/-- The groups a predicate accepts, in the order of the pattern: asked with the name first, then with the number. -/
def groupsOf (p : Pat) (f : GK → Bool) : List GK :=
  (List.range (p.groups + 1)).filterMap fun i =>
    if f (keyOf p i) then some (keyOf p i) else if f (.idx i) then some (.idx i) else none

end ExtractSpec
