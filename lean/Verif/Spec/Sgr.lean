/-!
# What a terminal does with SGR sequences (ECMA-48 / ISO 6429, ITU T.416 colours)

A terminal reads characters.  `ESC [ p1 ; p2 ; … m` changes the current colours; other characters are
shown in the current colours.  Nothing here mentions the model.
-/
namespace SgrSpec

/-- A colour of the terminal.  `std 0 … std 7` are the standard colours, `bright 0 … bright 7` their
bright variants. -/
inductive Hue where
  | default
  | std (n : Nat)
  | bright (n : Nat)
  | rgb (r g b : Nat)
  | indexed (n : Nat)
  deriving DecidableEq

/-- Current colours. -/
structure Look where
  fg : Hue
  bg : Hue
  deriving DecidableEq

/-- The effect of the parameters of one sequence, from left to right.  Parameters that do not concern
colours are skipped. -/
def select : List Nat → Look → Look
  | [], a => a
  | 38 :: 2 :: r :: g :: b :: ps, a => select ps { a with fg := .rgb r g b }
  | 48 :: 2 :: r :: g :: b :: ps, a => select ps { a with bg := .rgb r g b }
  | 38 :: 5 :: n :: ps, a => select ps { a with fg := .indexed n }
  | 48 :: 5 :: n :: ps, a => select ps { a with bg := .indexed n }
  | n :: ps, a =>
    if n = 0 then select ps ⟨.default, .default⟩
    else if n = 39 then select ps { a with fg := .default }
    else if n = 49 then select ps { a with bg := .default }
    else if 30 ≤ n ∧ n ≤ 37 then select ps { a with fg := .std (n - 30) }
    else if 40 ≤ n ∧ n ≤ 47 then select ps { a with bg := .std (n - 40) }
    else if 90 ≤ n ∧ n ≤ 97 then select ps { a with fg := .bright (n - 90) }
    else if 100 ≤ n ∧ n ≤ 107 then select ps { a with bg := .bright (n - 100) }
    else select ps a

/-- Where the terminal is: in the text, after ESC, or inside `ESC [` with the parameters read so far and
the one being read. -/
inductive Mode where
  | text
  | esc
  | csi (done : List Nat) (cur : Nat)

/-- One character: the new state, and what is shown. -/
def step : Mode → Look → Char → Mode × Look × List (Char × Look)
  | .text, a, c => if c.toNat = 27 then (.esc, a, []) else (.text, a, [(c, a)])
  | .esc, a, c => if c = '[' then (.csi [] 0, a, []) else (.text, a, [])
  | .csi ps n, a, c =>
    if c.isDigit then (.csi ps (10 * n + (c.toNat - '0'.toNat)), a, [])
    else if c = ';' then (.csi (ps ++ [n]) 0, a, [])
    else if c = 'm' then (.text, select (ps ++ [n]) a, [])
    else (.text, a, [])

/-- What is shown for a text, and the state at its end. -/
def run : Mode → Look → List Char → Mode × Look × List (Char × Look)
  | m, a, [] => (m, a, [])
  | m, a, c :: cs =>
    let r := step m a c
    let q := run r.1 r.2.1 cs
    (q.1, q.2.1, r.2.2 ++ q.2.2)

end SgrSpec
