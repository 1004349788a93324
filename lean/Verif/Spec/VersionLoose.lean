import Verif.Model.Query
/-!
# The ways to write a version: PEP 440, appendix B

Letters may be of either case (`fold` says which other characters count as a letter when case is ignored, and `local`
which others count as letter or digit).
-/
namespace VersionSpec

/-- Decimal digits, at least one. -/
def Digits (u : List Char) : Prop := u ≠ [] ∧ ∀ c ∈ u, '0'.toNat ≤ c.toNat ∧ c.toNat ≤ '9'.toNat

/-- Nothing, or one of `-`, `_`, `.`. -/
def Separator (u : List Char) : Prop := u = [] ∨ u = ['-'] ∨ u = ['_'] ∨ u = ['.']

/-- `u` is the word `w`, case ignored. -/
def SameWord (fold : Char → Char → Bool) : List Char → List Char → Prop
  | [], [] => True
  | c :: w, x :: u => (x = c ∨ x = c.toUpper ∨ fold c x = true) ∧ SameWord fold w u
  | _, _ => False

/-- A pre-, post- or development release: separator, word, separator, number. -/
structure Tag where
  sep : List Char
  word : List Char
  sep' : List Char
  num : Option (List Char)

def Tag.text (t : Tag) : List Char := t.sep ++ (t.word ++ (t.sep' ++ t.num.getD []))

/-- A tag with one of the words `ws`. -/
def Tag.OK (fold : Char → Char → Bool) (ws : List (List Char)) (t : Tag) : Prop :=
  Separator t.sep ∧ (∃ w ∈ ws, SameWord fold w t.word) ∧ Separator t.sep' ∧ ∀ n, t.num = some n → Digits n

/-- A post-release: `-` and a number, or with a word. -/
inductive Post where
  | implicit (n : List Char)
  | tagged (t : Tag)

def Post.text : Post → List Char
  | .implicit n => '-' :: n
  | .tagged t => t.text

/-- A version as it is written. -/
structure Spelling where
  left : List Char
  v : List Char
  epoch : Option (List Char)
  release : List Char
  releases : List (List Char)
  pre : Option Tag
  post : Option Post
  dev : Option Tag
  loc : Option (List Char × List (Char × List Char))
  right : List Char

def preWords : List (List Char) :=
  ["a".toList, "b".toList, "c".toList, "rc".toList, "alpha".toList, "beta".toList, "pre".toList, "preview".toList]
def postWords : List (List Char) := ["post".toList, "rev".toList, "r".toList]
def devWords : List (List Char) := ["dev".toList]

def Spelling.releaseText (s : Spelling) : List Char := s.release ++ s.releases.flatMap fun n => '.' :: n
def Spelling.localText : List Char × List (Char × List Char) → List Char
  | (a, as) => a ++ as.flatMap fun q => q.1 :: q.2

/-- The text. -/
def Spelling.text (s : Spelling) : List Char :=
  s.left ++ (s.v ++ ((s.epoch.map (· ++ ['!'])).getD [] ++ (s.releaseText ++ ((s.pre.map Tag.text).getD [] ++
    ((s.post.map Post.text).getD [] ++ ((s.dev.map Tag.text).getD [] ++
      ((s.loc.map fun l => '+' :: Spelling.localText l).getD [] ++ s.right)))))))

/-- A segment of a local version: letters and digits, at least one. -/
def LocalSegment (alnum : Char → Bool) (u : List Char) : Prop :=
  u ≠ [] ∧ ∀ c ∈ u, ('0'.toNat ≤ c.toNat ∧ c.toNat ≤ '9'.toNat) ∨ ('a'.toNat ≤ c.toNat ∧ c.toNat ≤ 'z'.toNat) ∨
    ('A'.toNat ≤ c.toNat ∧ c.toNat ≤ 'Z'.toNat) ∨ alnum c = true

/-- The rules of appendix B. -/
structure Spelling.OK (fold : Char → Char → Bool) (alnum : Char → Bool) (s : Spelling) : Prop where
  left : ∀ c ∈ s.left, Pawpaw.Query.reSpace c = true
  v : s.v = [] ∨ SameWord fold ['v'] s.v
  epoch : ∀ n, s.epoch = some n → Digits n
  release : Digits s.release ∧ ∀ n ∈ s.releases, Digits n
  pre : ∀ t, s.pre = some t → t.OK fold preWords
  implicit : ∀ n, s.post = some (.implicit n) → Digits n
  post : ∀ t, s.post = some (.tagged t) → t.OK fold postWords
  dev : ∀ t, s.dev = some t → t.OK fold devWords
  loc : ∀ a as, s.loc = some (a, as) → LocalSegment alnum a ∧
    ∀ q ∈ as, (q.1 = '-' ∨ q.1 = '_' ∨ q.1 = '.') ∧ LocalSegment alnum q.2
  right : ∀ c ∈ s.right, Pawpaw.Query.reSpace c = true

/-- The tag of a post-release with a word. -/
def Post.tag? : Post → Option Tag
  | .tagged t => some t
  | .implicit _ => none

/-- The part a name stands for. -/
def Spelling.field (s : Spelling) : String → Option (List Char)
  | "epoch" => s.epoch
  | "release" => some s.releaseText
  | "pre" => s.pre.map Tag.text
  | "pre_l" => s.pre.map Tag.word
  | "pre_n" => s.pre.bind Tag.num
  | "post" => s.post.map Post.text
  | "post_n1" => s.post.bind fun | .implicit n => some n | _ => none
  | "post_l" => (s.post.bind Post.tag?).map Tag.word
  | "post_n2" => (s.post.bind Post.tag?).bind Tag.num
  | "dev" => s.dev.map Tag.text
  | "dev_l" => s.dev.map Tag.word
  | "dev_n" => s.dev.bind Tag.num
  | "local" => s.loc.map Spelling.localText
  | _ => none

end VersionSpec
