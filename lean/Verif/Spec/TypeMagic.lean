import Verif.Model.TypeMagic
/-!
# What the type tests should mean
-/
namespace Pawpaw
namespace TypeMagic

/-- An object of class `c` is an instance of `t` (type arguments of a generic are not looked at). -/
inductive Inst (env : Env) (c : Nat) : Ty → Prop where
  | cls {d : Nat} : env.sub c d = true → Inst env c (.cls d)
  | gen {o : Nat} {args : List Ty} : env.sub c o = true → Inst env c (.gen o args)
  | bar {ms : List Ty} {m : Ty} : m ∈ ms → Inst env c m → Inst env c (.bar ms)
  | union {ms : List Ty} {m : Ty} : m ∈ ms → Inst env c m → Inst env c (.union ms)
  | any : Inst env c .any

/-- Classes, generics, and `|` of such. -/
inductive Known : Ty → Prop where
  | cls (c : Nat) : Known (.cls c)
  | gen (o : Nat) (args : List Ty) : Known (.gen o args)
  | bar {ms : List Ty} : (∀ m ∈ ms, Known m) → Known (.bar ms)

/-- A class that occurs in `t` outside type arguments. -/
inductive Occurs (c : Nat) : Ty → Prop where
  | cls : Occurs c (.cls c)
  | gen {args : List Ty} : Occurs c (.gen c args)
  | bar {ms : List Ty} {m : Ty} : m ∈ ms → Occurs c m → Occurs c (.bar ms)
  | union {ms : List Ty} {m : Ty} : m ∈ ms → Occurs c m → Occurs c (.union ms)

/-- `a` is a subtype of `t`: whatever is an instance of `a` is an instance of `t`. -/
def Below (env : Env) (a t : Ty) : Prop := ∀ c, Inst env c a → Inst env c t

/-- `issubclass` is reflexive and transitive. -/
structure Env.Order (env : Env) : Prop where
  refl : ∀ c, env.sub c c = true
  trans : ∀ a b c, env.sub a b = true → env.sub b c = true → env.sub a c = true

/-- The type the function declares for a name, if any: what `get_type_hints` says (strings resolved). -/
structure Declares (env : Env) (ann : Ann) (hint : Option Ty) (t : Option Ty) : Prop where
  hint_eq : hint = t
  ann_eq : ∀ a, ann = .ty a → t = some a

/-- The declared type `t` (if any) shares a class, up to `issubclass`, with the wanted one `p`. -/
def Meets (env : Env) (t : Option Ty) (p : Ty) : Prop :=
  ∀ a, t = some a → p = .any ∨ ∃ c d, Occurs c a ∧ Occurs d p ∧ env.sub c d = true

/-- A function as `functoid_isinstance` sees it, with the types it declares: `ps` for its parameters in order, `r`
for what it returns. -/
structure Declared (env : Env) (f : Func) (ps : List (Option Ty)) (r : Option Ty) : Prop where
  ok : ∃ params ret hs, f.sig = .ok (params, ret) ∧ f.hints = .ok hs ∧
    Declares env ret (hintOf hs "return") r ∧
    params.length = ps.length ∧
    ∀ i (h : i < params.length) (h' : i < ps.length),
      Declares env (params[i]).2 (hintOf hs (params[i]).1) ps[i]
  known : ∀ a, (some a ∈ ps ∨ r = some a) → Known a

end TypeMagic
end Pawpaw
