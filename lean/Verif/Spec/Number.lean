import Verif.Model.NumberRe
/-!
# Specification: what a number is

Only the settings `Fmt` are taken from the model.
-/
namespace NumberSpec
open Pawpaw.NumberRe

variable (F : Fmt)

/-- One or more digits. -/
def Digits (s : List Char) : Prop := s ≠ [] ∧ ∀ c ∈ s, F.digit c = true

/-- Nothing, `-` or `+`. -/
def Sign (s : List Char) : Prop := s = [] ∨ s = ['-'] ∨ s = ['+']

/-- Nothing or a space. -/
def Space (s : List Char) : Prop := s = [] ∨ s = [' ']

/-- One to three digits, then one or more groups of three digits, a separator before each; or, where separators are
optional, any digits. -/
def IsInt (s : List Char) : Prop :=
  (∃ h gs, s = h ++ (gs.map (F.sep ++ ·)).flatten ∧ Digits F h ∧ h.length ≤ 3 ∧ gs ≠ [] ∧
    ∀ g ∈ gs, Digits F g ∧ g.length = 3) ∨
  (F.optional = true ∧ Digits F s)

/-- A decimal point and digits. -/
def IsDec (s : List Char) : Prop := ∃ ds, s = F.point ++ ds ∧ Digits F ds

/-- `e`, sign, digits; or ` x 10^`, sign, digits, with or without each of the spaces. -/
def IsExp (s : List Char) : Prop :=
  (∃ c sg ds, s = c :: sg ++ ds ∧ (c = 'E' ∨ c = 'e') ∧ Sign sg ∧ Digits F ds) ∨
  (∃ s1 c s2 s3 sg ds, s = s1 ++ c :: s2 ++ '1' :: '0' :: '^' :: s3 ++ sg ++ ds ∧ (c = 'X' ∨ c = 'x' ∨ c = '\u2715') ∧
    Space s1 ∧ Space s2 ∧ Space s3 ∧ Sign sg ∧ Digits F ds)

/-- Sign, integer part, decimals, exponent; the sign, the exponent and one of the two middle parts may be missing. -/
def IsNumber (s : List Char) : Prop :=
  ∃ sg i d e, s = sg ++ i ++ d ++ e ∧ Sign sg ∧ (i = [] ∨ IsInt F i) ∧ (d = [] ∨ IsDec F d) ∧ (i ≠ [] ∨ d ≠ []) ∧
    (e = [] ∨ IsExp F e)

/-- The settings make sense: separator and decimal point are not empty, have no character in common, and none that is
a digit, a sign or starts an exponent; and none of the latter is a digit. -/
structure Sane : Prop where
  sep : F.sep ≠ []
  point : F.point ≠ []
  apart : ∀ c ∈ F.sep, c ∉ F.point
  plain : ∀ c ∈ F.sep ++ F.point, F.digit c = false ∧ c ∉ ['-', '+', 'E', 'e', 'X', 'x', '\u2715', ' ']
  letters : ∀ c ∈ ['-', '+', 'E', 'e', 'X', 'x', '\u2715', ' '], F.digit c = false

end NumberSpec
