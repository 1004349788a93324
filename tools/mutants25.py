P="ConMake.lean"; L="Pipeline.lean"
MUTANTS=[
(P,"decide ((h.obj x).desc = some s)","decide ((h.obj x).desc ≠ some s)","the predicate is negated"),
(P,"decide ((h.obj x).desc = Option.none)","true","predicate=None lets everything through"),
(P,"  | .fn (.ok false) _ => .error .typeError","  | .fn (.ok false) f => .ok f","functions of other types are accepted"),
(P,"    | .ok f => .ok ⟨kind, t, f⟩","    | .ok f => .ok ⟨.recurse, t, f⟩","every connector is a Recurse"),
(P,"({ it with post := some f }, .ok ())","({ it with post := some f, cons := [] }, .ok ())","assigning a postorator drops the connections"),
(P,"  | .none => ({ it with post := Option.none }, .ok ())","  | .none => (it, .ok ())","None does not take the postorator away"),
(P,"  | .other => (it, .error .typeError)","  | .other => ({ it with post := Option.none }, .error .typeError)","a refused value clears the postorator"),
(P,"  | .fn _ => (it, .error .typeError)","  | .fn f => ({ it with post := some f }, .ok ())","functions are accepted (the bug is gone: the violation must fail)"),
(L,"    | .ok false => flow fuel trav cs h x\n","    | .ok false => .yield h x .done\n","after a connector that does not apply the others are not asked"),
]
