C="ItoratorClone.lean"
MUTANTS=[
(C,"if i = S.next then true else S.wrapped i","if i = S.next then false else S.wrapped i","a clone cannot be cloned again"),
(C,"(match tag with | none => S.tag i | some t => some t)","(match tag with | none => none | some t => some t)","the tag of the original is lost"),
(C,"(match tag with | none => S.tag i | some t => some t)","(match S.tag i with | none => tag | some t => some t)","the tag given is ignored"),
]
