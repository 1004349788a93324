P="ConMake.lean"; I="Infix.lean"
T="the wrong exception is raised"
MUTANTS=[
(I,"  | .infix _, .infix _ => .error .typeError","  | .infix _, .infix _ => .error .valueError",T),
(I,"  | .two _, _ => .error .typeError","  | .two _, _ => .error .valueError",T),
(I,"  | .one _, _, _ => .error .typeError","  | .one _, _, _ => .error .valueError",T),
(I,"  | _, _ => .error .typeError","  | _, _ => .error .valueError",T),
(I,"  | _, .infix _ => .error .typeError","  | _, .infix _ => .error .valueError",T),
(P,"  | .ok false => .error .typeError","  | .ok false => .error .valueError",T),
(P,"  | .other => (it, .error .typeError)","  | .other => (it, .error .valueError)",T),
(P,"  | Option.none => .error .typeError","  | Option.none => .error .valueError",T),
(P,"  | .fn (.ok false) _ => .error .typeError","  | .fn (.ok false) _ => .error .valueError",T),
(P,"  | .other => .error .typeError","  | .other => .error .valueError",T),
]
