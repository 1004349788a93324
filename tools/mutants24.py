P="ParagraphSet.lean"
MUTANTS=[
(P,"  | .int n => rebuild compile { s with min := n }","  | .int n => ({ s with min := n }, .ok ())","the pattern is not rebuilt"),
(P,"  | .int n => rebuild compile { s with min := n }","  | .int _ => rebuild compile s","min_separators is not stored"),
(P,"  | .bool b => ({ s with trim := b }, .ok ())","  | .bool b => ({ s with trim := !b }, .ok ())","trim_ws is negated"),
(P,"  | .strs _ => rebuild compile { s with seps := .alias }","  | .strs l => rebuild compile { s with seps := .list l }","the setter stores the list (the bug is gone: the violation must fail)"),
(P,"  | .bool b => ({ s with trim := b }, .ok ())\n  | _ => (s, .error .typeError)","  | .bool b => ({ s with trim := b }, .ok ())\n  | _ => ({ s with trim := false }, .error .typeError)","a refused value changes trim_ws"),
(P,"(compile (s.seps, s.min)).map fun _ => (s.seps, s.min)","(compile (s.seps, s.min)).map fun _ => s.re","the pattern stays the old one"),
(P,"fun _ => ⟨.list eol, min, trim, (.list eol, min)⟩","fun _ => ⟨.list eol, min, false, (.list eol, min)⟩","the trim_ws of the constructor is lost"),
]
