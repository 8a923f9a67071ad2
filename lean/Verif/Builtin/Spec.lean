import Verif.Builtin.Model
/-! # Calls of built-in functions: specification, after `lang.md`, "Built-in functions" -/

namespace Umka.Builtin.Spec

/-- What the rest of the compiler guarantees: there are no values of type `void`; the types that convert to `int` are those compatible with it. -/
structure Lawful (E : Env) : Prop where
  noVoid : ∀ t, E.conv t .void = false
  noVoidEquiv : ∀ t, t ≠ .void → E.equiv t .void = false ∧ E.equiv .void t = false
  int : ∀ t, E.compat .int t = E.conv .int t

/-- An argument of a type that converts to the type of the parameter. -/
def Arg.Is (E : Env) (param : Ty) : Arg → Prop
  | .expr t _ => E.conv param t = true
  | _ => False

/-- An argument of exactly this type. -/
def Arg.Has (param : Ty) : Arg → Prop
  | .expr t _ => t = param
  | _ => False

/-- The signatures of the language reference. -/
inductive Signature (E : Env) : Fun → List Arg → Ty → Prop
  -- fn round(x: real): int ...
  | toInt (f : Fun) (a : Arg) : f ∈ [Fun.round, .trunc, .ceil, .floor] → Arg.Is E .real a → Signature E f [a] .int
  -- fn abs (x: int): int
  | abs (a : Arg) : Arg.Is E .int a → Signature E .abs [a] .int
  -- fn fabs (x: real): real ...
  | toReal (f : Fun) (a : Arg) : f ∈ [Fun.fabs, .sqrt, .sin, .cos, .atan, .exp, .log] → Arg.Is E .real a → Signature E f [a] .real
  -- fn atan2(y, x: real): real
  | atan2 (a b : Arg) : Arg.Is E .real a → Arg.Is E .real b → Signature E .atan2 [a, b] .real
  -- fn new(T [, x: T]): ^T
  | new (T : Ty) (n : Bool) : T ≠ .void → T ≠ .null → Signature E .new [.type T n] (.ptr T)
  | newInit (T : Ty) (n : Bool) (x : Arg) : T ≠ .void → T ≠ .null → Arg.Is E T x → Signature E .new [.type T n, x] (.ptr T)
  -- fn make([]T, length: int): []T
  | makeArray (T : Ty) (n : Bool) (length : Arg) : Arg.Is E .int length → Signature E .make [.type (.dyn T) n, length] (.dyn T)
  -- fn make(map[K]T): map[K]T
  | makeMap (K T : Ty) (n : Bool) : Signature E .make [.type (.map K T) n] (.map K T)
  -- fn make(fiber, f: fn()): fiber
  | makeFiber (n : Bool) (f : Arg) : Arg.Is E .thunk f → Signature E .make [.type .fiber n, f] .fiber
  -- fn copy(a: str): str; fn copy(a: []T): []T; fn copy(m: map[K]T): map[K]T
  | copyStr (a : Arg) : Arg.Has .str a → Signature E .copy [a] .str
  | copyArray (T : Ty) (a : Arg) : Arg.Has (.dyn T) a → Signature E .copy [a] (.dyn T)
  | copyMap (K T : Ty) (m : Arg) : Arg.Has (.map K T) m → Signature E .copy [m] (.map K T)
  -- fn append(a: []T, x: T): []T, if x is of a type implicitly convertible to T and not equivalent to [...]T or []T
  | append (T U : Ty) (a : Arg) (c : Bool) : Arg.Has (.dyn T) a → E.conv T U = true → E.equiv (.dyn T) U = false →
      (∀ n V, U = .array n V → E.equiv T V = false) → Signature E .append [a, .expr U c] (.dyn T)
  -- fn append(a: []T, x: ([...]T | []T)): []T
  | appendDyn (T U : Ty) (a : Arg) (c : Bool) : Arg.Has (.dyn T) a → E.equiv (.dyn T) U = true → Signature E .append [a, .expr U c] (.dyn T)
  | appendArray (T V : Ty) (n : Nat) (a : Arg) (c : Bool) : Arg.Has (.dyn T) a → E.equiv T V = true →
      Signature E .append [a, .expr (.array n V) c] (.dyn T)
  -- fn insert(a: []T, index: int, x: T): []T
  | insert (T : Ty) (a i x : Arg) : Arg.Has (.dyn T) a → Arg.Is E .int i → Arg.Is E T x → Signature E .insert [a, i, x] (.dyn T)
  -- fn delete(a: []T, index: int): []T; fn delete(m: map[K]T, key: K): map[K]T
  | deleteItem (T : Ty) (a i : Arg) : Arg.Has (.dyn T) a → Arg.Is E .int i → Signature E .delete [a, i] (.dyn T)
  | deleteKey (K T : Ty) (m k : Arg) : Arg.Has (.map K T) m → Arg.Is E K k → Signature E .delete [m, k] (.map K T)
  -- fn slice(a: ([]T | str), startIndex [, endIndex]: int): ([]T | str)
  | slice (R : Ty) (a i : Arg) : (R = .str ∨ ∃ T, R = .dyn T) → Arg.Has R a → Arg.Is E .int i → Signature E .slice [a, i] R
  | sliceEnd (R : Ty) (a i j : Arg) : (R = .str ∨ ∃ T, R = .dyn T) → Arg.Has R a → Arg.Is E .int i → Arg.Is E .int j → Signature E .slice [a, i, j] R
  -- fn sort(d: []T, compare: fn (a, b: ^T): int)
  | sort (T U : Ty) (d : Arg) (c : Bool) : Arg.Has (.dyn T) d → E.conv (.comparer T) U = true → E.equiv U .bool = false →
      Signature E .sort [d, .expr U c] .void
  -- fn sort(d: []T, ascending: bool [, fieldName])
  | sortFast (T U : Ty) (d : Arg) (c : Bool) : Arg.Has (.dyn T) d → E.equiv U .bool = true → E.comparable T = true → Signature E .sort [d, .expr U c] .void
  | sortField (n : Nat) (U F : Ty) (d : Arg) (c : Bool) (s : String) : Arg.Has (.dyn (.struct n)) d → E.equiv U .bool = true → E.field n s = some F →
      E.comparable F = true → Signature E .sort [d, .expr U c, .name s] .void
  -- fn len(a: ([...]T | []T | map[K]T | str)): int
  | len (a : Arg) : (∃ n T, Arg.Has (.array n T) a) ∨ (∃ T, Arg.Has (.dyn T) a) ∨ (∃ K T, Arg.Has (.map K T) a) ∨ Arg.Has .str a → Signature E .len [a] .int
  -- fn cap(a: ([]T | str)): int
  | cap (a : Arg) : (∃ T, Arg.Has (.dyn T) a) ∨ Arg.Has .str a → Signature E .cap [a] .int
  -- fn sizeof(T | a: T): int
  | sizeofType (T : Ty) (n : Bool) : Signature E .sizeof [.type T n] .int
  | sizeof (T : Ty) (c : Bool) : Signature E .sizeof [.expr T c] .int
  -- fn sizeofself(a: interface{...}): int and so on
  | sizeofself (n : Nat) (a : Arg) : Arg.Has (.iface n) a → Signature E .sizeofself [a] .int
  | selfptr (n : Nat) (a : Arg) : Arg.Has (.iface n) a → Signature E .selfptr [a] (.ptr .void)
  | selfhasptr (n : Nat) (a : Arg) : Arg.Has (.iface n) a → Signature E .selfhasptr [a] .bool
  | selftypeeq (m n : Nat) (a b : Arg) : Arg.Has (.iface m) a → Arg.Has (.iface n) b → Signature E .selftypeeq [a, b] .bool
  -- fn typeptr(T): ^void
  | typeptr (T : Ty) (n : Bool) : T ≠ .void → T ≠ .null → Signature E .typeptr [.type T n] (.ptr .void)
  -- fn valid(a: ([]T | map[K]T | interface{...} | fn (...): T | fiber)): bool
  | valid (T : Ty) (a : Arg) : Arg.Has T a → ((∃ U, T = .dyn U) ∨ (∃ K U, T = .map K U) ∨ (∃ n, T = .iface n) ∨ (∃ n, T = .fn n) ∨ (∃ n, T = .closure n) ∨
      T = .thunk ∨ (∃ U, T = .comparer U) ∨ T = .fiber) → Signature E .valid [a] .bool
  -- fn validkey(m: map[K]T, key: K): bool
  | validkey (K T : Ty) (m k : Arg) : Arg.Has (.map K T) m → Arg.Is E K k → Signature E .validkey [m, k] .bool
  -- fn keys(m: map[K]T): []K
  | keys (K T : Ty) (m : Arg) : Arg.Has (.map K T) m → Signature E .keys [m] (.dyn K)
  -- fn resume([fib: fiber])
  | resume : Signature E .resume [] .void
  | resumeFiber (f : Arg) : Arg.Is E .fiber f → Signature E .resume [f] .void
  -- fn memusage(): int; fn leaksan(level: int); fn exit(code: int, msg: str = "")
  | memusage : Signature E .memusage [] .int
  | leaksan (a : Arg) : Arg.Is E .int a → Signature E .leaksan [a] .void
  | exit (a : Arg) : Arg.Is E .int a → Signature E .exit [a] .void
  | exitMsg (a m : Arg) : Arg.Is E .int a → Arg.Is E .str m → Signature E .exit [a, m] .void

/-- The depth of the stack after some code that starts with an empty stack; nothing if it takes what is not there. -/
def depth (d : Nat) : List Gen → Option Nat
  | [] => some d
  | g :: gs => if g.effect.1 ≤ d then depth (d - g.effect.1 + g.effect.2) gs else none

/-- The slots of a result on the stack. -/
def slots (t : Ty) : Nat := if t = .void then 0 else 1

/-- The functions allowed in constant expressions, with the types of their argument. -/
def ConstCall (f : Fun) (args : List Arg) : Prop :=
  f ∈ [Fun.round, .trunc, .ceil, .floor, .abs, .fabs, .sqrt, .sin, .cos, .atan, .atan2, .exp, .log, .sizeof, .typeptr] ∨
  (f = .len ∧ ((∃ n T c, args = [.expr (.array n T) c]) ∨ ∃ c, args = [.expr .str c])) ∨ (f = .cap ∧ ∃ c, args = [.expr .str c])

def Arg.Constant : Arg → Prop
  | .expr _ c => c = true
  | _ => True

end Umka.Builtin.Spec
