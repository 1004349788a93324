/-!
# PEP 440 version identifiers and their canonical text
-/
namespace VersionSpec

/-- Pre-release phases. -/
inductive Phase where
  | a | b | rc

/-- How a phase is written. -/
def Phase.text : Phase → List Char
  | a => ['a']
  | b => ['b']
  | rc => ['r', 'c']

/-- A version: epoch, release numbers, pre-release, post-release, development release, local version (segments; each
but the first with the separator before it). -/
structure Ver where
  epoch : Nat
  release : Nat
  releases : List Nat
  pre : Option (Phase × Nat)
  post : Option Nat
  dev : Option Nat
  loc : Option (List Char × List (Char × List Char))

/-- A number in decimal. -/
def dec (n : Nat) : List Char := Nat.toDigits 10 n

/-- The text of a version. -/
def Ver.text (v : Ver) : List Char :=
  (if v.epoch = 0 then [] else dec v.epoch ++ ['!']) ++
  (dec v.release ++ v.releases.flatMap (fun n => '.' :: dec n)) ++
  (match v.pre with | none => [] | some (p, n) => p.text ++ dec n) ++
  (match v.post with | none => [] | some n => ".post".toList ++ dec n) ++
  (match v.dev with | none => [] | some n => ".dev".toList ++ dec n) ++
  (match v.loc with | none => [] | some (s, ss) => '+' :: (s ++ ss.flatMap (fun q => q.1 :: q.2)))

/-- A segment of a local version: lower case letters and digits, at least one. -/
def Segment (s : List Char) : Prop := s ≠ [] ∧ ∀ c ∈ s, ('a'.toNat ≤ c.toNat ∧ c.toNat ≤ 'z'.toNat) ∨ ('0'.toNat ≤ c.toNat ∧ c.toNat ≤ '9'.toNat)

/-- A public or local version identifier, local segments being separated by `-`, `_` or `.`. -/
def Ver.Proper (v : Ver) : Prop :=
  ∀ s ss, v.loc = some (s, ss) → Segment s ∧ ∀ q ∈ ss, (q.1 = '-' ∨ q.1 = '_' ∨ q.1 = '.') ∧ Segment q.2

/-- Normal form of PEP 440: local segments are separated by `.`. -/
def Ver.Normal (v : Ver) : Prop :=
  v.Proper ∧ ∀ s ss, v.loc = some (s, ss) → ∀ q ∈ ss, q.1 = '.'

end VersionSpec

namespace VersionSpec

/-- The part of a version text a name stands for. -/
def Ver.field (v : Ver) : String → Option (List Char)
  | "epoch" => if v.epoch = 0 then none else some (dec v.epoch)
  | "release" => some (dec v.release ++ v.releases.flatMap (fun n => '.' :: dec n))
  | "pre" => v.pre.map fun p => p.1.text ++ dec p.2
  | "pre_l" => v.pre.map fun p => p.1.text
  | "pre_n" => v.pre.map fun p => dec p.2
  | "post" => v.post.map fun n => ".post".toList ++ dec n
  | "post_l" => v.post.map fun _ => "post".toList
  | "post_n2" => v.post.map dec
  | "dev" => v.dev.map fun n => ".dev".toList ++ dec n
  | "dev_l" => v.dev.map fun _ => "dev".toList
  | "dev_n" => v.dev.map dec
  | "local" => v.loc.map fun l => l.1 ++ l.2.flatMap (fun q => q.1 :: q.2)
  | _ => none

end VersionSpec

namespace VersionSpec

/-- The parts within a part. -/
def subParts : String → List String
  | "pre" => ["pre_l", "pre_n"]
  | "post" => ["post_l", "post_n2"]
  | "dev" => ["dev_l", "dev_n"]
  | _ => []

/-- The parts of a version that are there, in the order of the text: name, text, and the parts within. -/
def Ver.outline (v : Ver) : List (String × List Char × List (String × List Char)) :=
  ["epoch", "release", "pre", "post", "dev", "local"].filterMap fun n => (v.field n).map fun t =>
    (n, t, (subParts n).filterMap fun m => (v.field m).map fun u => (m, u))

end VersionSpec
