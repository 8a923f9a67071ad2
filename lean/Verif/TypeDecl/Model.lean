import Verif.TypeDecl.Spec
/-!
# Type declarations: model

How the compiler builds types from type expressions, and how it declares names for them; types may be
used before they are declared in the same `type (...)` list (forward types).

Simplifications: the parser's input is the syntax tree; enumerations (area `Enum`), default values of
parameters, export marks, `module::name` and the use of `int` for sizes (area `Layout`) are left out;
nodes that only the compiler itself refers to (the node type of maps, function types inside closures
and interfaces, the pointer type of `#result`) are not nodes of their own; which identifiers are
visible is in area `Scope`: here a block is a list of bindings inside its outer blocks.
-/

namespace Umka.TypeDecl

inductive Err where
  | typeExpected
  | unknownIdent (x : Name)
  | duplicateIdent (x : Name)
  | mustBeStructured (x : Name)
  | unresolvedForward
  | forwardField (x : Name)
  | voidField (x : Name)
  | duplicateField (x : Name)
  | structTooLarge
  | arrayTooLarge
  | illegalArrayLength
  | illegalType
  | voidItems
  | keyNotComparable
  | duplicateParam (x : Name)
  | tooManyParams
  | interfaceExpected
  | noBlock
  deriving DecidableEq, Repr

/-- `Type` (umka_types.h): `kind` and what belongs to it, `size`, `alignment`,
`isGarbageCollected`. -/
structure Node where
  body : Body
  size : Int
  alignment : Int
  gc : Bool
  deriving DecidableEq, Repr

/-- The types that exist, the identifiers of the current block (the newest first), those of the outer
blocks (the innermost first). -/
structure State where
  nodes : List Node
  cur : List (Name × Bind)
  outer : List (List (Name × Bind))
  deriving DecidableEq, Repr

abbrev Res (α : Type) := Except Err α

def intMax : Int := 2147483647

/-- `align` (umka_common.h:274-277). -/
def align (size alignment : Int) : Int := (size + (alignment - 1)) / alignment * alignment

/-- A node of a type that does not depend on others: `typeAdd` (umka_types.c:115-136) with
`typeSizeRecompute`, `typeAlignmentRecompute`, `typeHasPtr` (190-315).  Structures and arrays are made
by `structNode` and `arrNode`; interfaces have two fields of their own and one for each method
(umka_decl.c:448-450), closures have a function and an `any` (505-512). -/
def mkNode : Body → Node
  | .forward s => ⟨.forward s, -1, 0, false⟩
  | .void => ⟨.void, 0, 1, false⟩
  | .scalar k n => ⟨.scalar k n, n, n, false⟩
  | .str => ⟨.str, 8, 8, true⟩
  | .fiber => ⟨.fiber, 8, 8, true⟩
  | .ptr w t => ⟨.ptr w t, 8, 8, !w⟩
  | .dyn v t => ⟨.dyn v t, 24, 8, true⟩
  | .map k t => ⟨.map k t, 16, 8, true⟩
  | .iface ms => ⟨.iface ms, 16 + 8 * ms.length, 8, true⟩
  | .closure s => ⟨.closure s, 24, 8, true⟩
  | .arr n t => ⟨.arr n t, 0, 1, false⟩
  | .struct fs => ⟨.struct fs, 0, 1, false⟩

/-- The type with a number; there is no type with a greater number than the last one. -/
def State.get (s : State) (i : Id) : Node := s.nodes.getD i (mkNode (.forward false))

/-- `typeAdd`: a new type. -/
def State.alloc (s : State) (n : Node) : Id × State := (s.nodes.length, { s with nodes := s.nodes ++ [n] })

def find (l : List (Name × Bind)) (x : Name) : Option Bind :=
  match l with
  | [] => none
  | (y, b) :: l => if y = x then some b else find l x

/-- A name in the outer blocks. -/
def findOuter : List (List (Name × Bind)) → Name → Option Bind
  | [], _ => none
  | b :: bs, x => match find b x with
    | some r => some r
    | none => findOuter bs x

/-- `identFind` (umka_ident.c): the innermost block first. -/
def State.lookup (s : State) (x : Name) : Option Bind :=
  match find s.cur x with
  | some b => some b
  | none => findOuter s.outer x

/-- `typeStructured` (umka_types.h:300-304). -/
def structured : Body → Bool
  | .arr _ _ | .dyn _ _ | .map _ _ | .struct _ | .iface _ | .closure _ => true
  | _ => false

def isForward : Body → Bool
  | .forward _ => true
  | _ => false

/-- `typeComparableRecursive` (umka_types.c:318-346).  The number bounds the depth: the types on the
way are all different, so that it is enough if it exceeds their number. -/
def comparable (nodes : List Node) : Nat → List Id → Id → Bool
  | 0, _, _ => false
  | fuel + 1, visited, i =>
    if i ∈ visited then true
    else match (nodes.getD i (mkNode (.forward false))).body with
      | .scalar _ _ | .str | .ptr _ _ => true
      | .arr _ b | .dyn _ b => comparable nodes fuel (i :: visited) b
      | .struct fs => fs.all (fun f => comparable nodes fuel (i :: visited) f.2)
      | _ => false

/-- A structure under construction: `field`, `size`, `alignment`, `isGarbageCollected`, and where the
last field ends. -/
structure Acc where
  fields : List (Name × Id)
  stop : Int
  size : Int
  alignment : Int
  gc : Bool
  deriving DecidableEq, Repr

/-- `typeAdd(TYPE_STRUCT)`. -/
def Acc.empty : Acc := ⟨[], 0, 0, 1, false⟩

/-- The offset of the next field, the fields with it (umka_types.c:710-731). -/
def Acc.place (a : Acc) (x : Name) (i : Id) (n : Node) : Acc :=
  let offset := align a.stop n.alignment
  let alignment := if a.alignment < n.alignment then n.alignment else a.alignment
  { fields := a.fields ++ [(x, i)]
    stop := offset + n.size
    size := align (offset + n.size) alignment
    alignment := alignment
    gc := if n.gc then true else a.gc }

/-- `typeAddField` (umka_types.c:673-733). -/
def addField (s : State) (a : Acc) (x : Name) (i : Id) : Res Acc :=
  let n := s.get i
  if x ∈ a.fields.map Prod.fst then .error (.duplicateField x)
  else if isForward n.body then .error (.forwardField x)
  else if n.body = .void then .error (.voidField x)
  else if n.size < 0 then .error .illegalType
  else if n.size > intMax - a.stop then .error .structTooLarge
  else if n.alignment ≤ 0 then .error .illegalType
  else .ok (a.place x i n)

/-- One list of names with a common type (umka_decl.c:420-427). -/
def addFields (s : State) (a : Acc) (xs : List Name) (i : Id) : Res Acc :=
  match xs with
  | [] => .ok a
  | x :: xs => match addField s a x i with
    | .error e => .error e
    | .ok a' => addFields s a' xs i

def structNode (a : Acc) : Node := ⟨.struct a.fields, a.size, a.alignment, a.gc⟩

/-- `typeSetBase`, `typeAssertResizeArray`, `typeResizeArray` (umka_types.h:421-440,
umka_types.c:638-647). -/
def arrNode (n : Nat) (b : Id) (nb : Node) : Res Node :=
  if 0 < n ∧ nb.size < 0 then .error .illegalType
  else if 0 < n ∧ nb.size > intMax / n then .error .arrayTooLarge
  else .ok ⟨.arr n b, n * nb.size, nb.alignment, nb.gc⟩

/-- `typeAddParam` (umka_types.c:800-821) for one list of names; `hidden` parameters come before. -/
def addParams (hidden : Nat) (ps : List (Name × Id)) (xs : List Name) (i : Id) : Res (List (Name × Id)) :=
  match xs with
  | [] => .ok ps
  | x :: xs =>
    if x ∈ ps.map Prod.fst then .error (.duplicateParam x)
    else if hidden + ps.length ≥ 16 then .error .tooManyParams
    else addParams hidden (ps ++ [(x, i)]) xs i

/-- The type of the result, `voidType` if there is none. -/
def resultBody (s : State) : Option Id → Body
  | none => .void
  | some i => (s.get i).body

/-- The end of `parseSignature` (umka_decl.c:236-239): the hidden parameter `#result`. -/
def mkSig (s : State) (hidden : Nat) (ps : List (Name × Id)) (r : Option Id) : Res Sig :=
  if structured (resultBody s r) || isForward (resultBody s r) then
    if hidden + ps.length ≥ 16 then .error .tooManyParams else .ok ⟨ps, r, true⟩
  else .ok ⟨ps, r, false⟩

/-- Methods of an embedded interface are added one by one (umka_decl.c:483-489). -/
def addMethods (ms : List (Name × Sig)) : List (Name × Sig) → Res (List (Name × Sig))
  | [] => .ok ms
  | m :: rest =>
    if m.1 ∈ ms.map Prod.fst then .error (.duplicateField m.1) else addMethods (ms ++ [m]) rest

/-- `parseTypeOrForwardType` (umka_decl.c:16-36); `r` is what `parseType` gives. -/
def orForward (fwd rbs : Bool) (t : TE) (s : State) (r : Res (Id × State)) : Res (Id × State) :=
  match t with
  | .name x =>
    if fwd = true ∧ s.lookup x = none then
      let (i, s') := s.alloc (mkNode (.forward rbs))
      .ok (i, { s' with cur := (x, .type i) :: s'.cur })
    else r
  | _ => r

/-- The result list: a list of one type is that type (umka_decl.c:207-228). -/
def listResult (a : Acc) (s : State) : Option Id × State :=
  match a.fields with
  | [f] => (some f.2, s)
  | _ => let (i, s') := s.alloc (structNode a); (some i, s')

mutual
/-- `parseType` (umka_decl.c:518-542), `parsePtrType` (244-261), `parseArrayType` (266-304),
`parseMapType` (372-403), `parseStructType` (407-435), `parseInterfaceType` (439-495),
`parseClosureType` (499-515). -/
def parse (fwd : Bool) : TE → State → Res (Id × State)
  | .name x, s => match s.lookup x with
    | none => .error (.unknownIdent x)
    | some .other => .error .typeExpected
    | some (.type i) => .ok (i, s)
  | .ptr w t, s => match orForward fwd false t s (parse fwd t s) with
    | .error e => .error e
    | .ok (b, s') => .ok (s'.alloc (mkNode (.ptr w b)))
  | .dyn v t, s => match orForward fwd false t s (parse fwd t s) with
    | .error e => .error e
    | .ok (b, s') =>
      if (s'.get b).body = .void then .error .voidItems else .ok (s'.alloc (mkNode (.dyn v b)))
  | .arr n t, s =>
    if (n : Int) > intMax then .error .illegalArrayLength
    else match parse fwd t s with
    | .error e => .error e
    | .ok (b, s') =>
      if (s'.get b).body = .void then .error .voidItems
      else match arrNode n b (s'.get b) with
      | .error e => .error e
      | .ok nd => .ok (s'.alloc nd)
  | .map k t, s => match parse fwd k s with
    | .error e => .error e
    | .ok (a, s1) =>
      if comparable s1.nodes (s1.nodes.length + 1) [] a = false then .error .keyNotComparable
      else match orForward fwd false t s1 (parse fwd t s1) with
      | .error e => .error e
      | .ok (b, s2) =>
        if (s2.get b).body = .void then .error .voidItems else .ok (s2.alloc (mkNode (.map a b)))
  | .struct fs, s => match parseFields fwd fs s .empty with
    | .error e => .error e
    | .ok (a, s') => .ok (s'.alloc (structNode a))
  | .iface ms, s => match parseMethods fwd ms s [] with
    | .error e => .error e
    | .ok (l, s') => .ok (s'.alloc (mkNode (.iface l)))
  | .fn st, s => match parseSig fwd st s with
    | .error e => .error e
    | .ok (sig, s') => .ok (s'.alloc (mkNode (.closure sig)))
/-- The fields of a structure or of a result list, in order. -/
def parseFields (fwd : Bool) : Flds → State → Acc → Res (Acc × State)
  | .nil, s, a => .ok (a, s)
  | .cons xs t rest, s, a => match parse fwd t s with
    | .error e => .error e
    | .ok (i, s') => match addFields s' a xs i with
      | .error e => .error e
      | .ok a' => parseFields fwd rest s' a'
/-- The parameters of a signature (umka_decl.c:75-105, 146-201). -/
def parseParams (fwd : Bool) : Flds → State → List (Name × Id) → Res (List (Name × Id) × State)
  | .nil, s, ps => .ok (ps, s)
  | .cons xs t rest, s, ps => match orForward fwd false t s (parse fwd t s) with
    | .error e => .error e
    | .ok (i, s') => match addParams 1 ps xs i with
      | .error e => .error e
      | .ok ps' => parseParams fwd rest s' ps'
/-- `parseSignature` (umka_decl.c:137-240).  The parameter that comes first is `#upvalues` or, in
methods, `#self`. -/
def parseSig (fwd : Bool) : SigT → State → Res (Sig × State)
  | .mk ps r, s => match parseParams fwd ps s [] with
    | .error e => .error e
    | .ok (l, s1) => match parseResult fwd r s1 with
      | .error e => .error e
      | .ok (res, s2) => match mkSig s2 1 l res with
        | .error e => .error e
        | .ok sig => .ok (sig, s2)
/-- The result type of a signature (umka_decl.c:203-234). -/
def parseResult (fwd : Bool) : ResT → State → Res (Option Id × State)
  | .none, s => .ok (none, s)
  | .single t, s => match orForward fwd true t s (parse fwd t s) with
    | .error e => .error e
    | .ok (i, s') => .ok (some i, s')
  | .list ts, s => match parseFields fwd ts s .empty with
    | .error e => .error e
    | .ok (a, s') => .ok (listResult a s')
/-- The methods of an interface (umka_decl.c:453-492). -/
def parseMethods (fwd : Bool) : Meths → State → List (Name × Sig) → Res (List (Name × Sig) × State)
  | .nil, s, l => .ok (l, s)
  | .method x st rest, s, l => match parseSig fwd st s with
    | .error e => .error e
    | .ok (sig, s') => match addMethods l [(x, sig)] with
      | .error e => .error e
      | .ok l' => parseMethods fwd rest s' l'
  | .embed x rest, s, l => match s.lookup x with
    | none => .error (.unknownIdent x)
    | some .other => .error .typeExpected
    | some (.type i) => match (s.get i).body with
      | .iface ms => match addMethods l ms with
        | .error e => .error e
        | .ok l' => parseMethods fwd rest s l'
      | _ => .error .interfaceExpected
end

/-- `identAddType` (umka_ident.c:291-294) with `identAdd` (192-247), `identTryResolveForwardType`
(149-171). -/
def addType (s : State) (x : Name) (i : Id) : Res State :=
  match find s.cur x with
  | none => .ok { s with cur := (x, .type i) :: s.cur }
  | some (.type e) => match (s.get e).body with
    | .forward rbs =>
      if isForward (s.get i).body then .error (.duplicateIdent x)
      else if rbs && !structured (s.get i).body then .error (.mustBeStructured x)
      else .ok { s with nodes := s.nodes.set e (s.get i) }
    | _ => .error (.duplicateIdent x)
  | some .other => .error (.duplicateIdent x)

/-- `parseTypeDeclItem` (umka_decl.c:546-560): the new type is a copy (`typeDeepCopy`). -/
def declItem (s : State) (x : Name) (t : TE) : Res State :=
  match parse true t s with
  | .error e => .error e
  | .ok (i, s1) =>
    let (j, s2) := s1.alloc (s1.get i)
    addType s2 x j

def declItems (s : State) : List (Name × TE) → Res State
  | [] => .ok s
  | (x, t) :: rest => match declItem s x t with
    | .error e => .error e
    | .ok s' => declItems s' rest

/-- `parseTypeDecl` (umka_decl.c:564-584); at the end `typeEnableForward` (umka_types.c:626-635). -/
def declGroup (s : State) (g : List (Name × TE)) : Res State :=
  match declItems s g with
  | .error e => .error e
  | .ok s' => if s'.nodes.any (fun n => isForward n.body) then .error .unresolvedForward else .ok s'

/-- What a program does with types. -/
inductive Op where
  /-- `type (x = t; ...)` -/
  | types (g : List (Name × TE))
  /-- a type in any other place, such as the declaration of a variable -/
  | use (t : TE)
  /-- declaration of a name that is not a type -/
  | other (x : Name)
  | enter
  | leave

def step (s : State) : Op → Res State
  | .types g => declGroup s g
  | .use t => match parse false t s with
    | .error e => .error e
    | .ok (_, s') => .ok s'
  | .other x => match find s.cur x with
    | some _ => .error (.duplicateIdent x)
    | none => .ok { s with cur := (x, .other) :: s.cur }
  | .enter => .ok { s with cur := [], outer := s.cur :: s.outer }
  | .leave => match s.outer with
    | [] => .error .noBlock
    | b :: bs => .ok { s with cur := b, outer := bs }

def run (s : State) : List Op → Res State
  | [] => .ok s
  | op :: ops => match step s op with
    | .error e => .error e
    | .ok s' => run s' ops

/-- The types of the universe scope (umka_compiler.c:74-90, umka_types.c:50-100), without `__file`. -/
def init : State where
  nodes := [mkNode .void,
    mkNode (.scalar "int8" 1), mkNode (.scalar "int16" 2), mkNode (.scalar "int32" 4), mkNode (.scalar "int" 8),
    mkNode (.scalar "uint8" 1), mkNode (.scalar "uint16" 2), mkNode (.scalar "uint32" 4), mkNode (.scalar "uint" 8),
    mkNode (.scalar "bool" 1), mkNode (.scalar "char" 1), mkNode (.scalar "real32" 4), mkNode (.scalar "real" 8),
    mkNode .str, mkNode .fiber, mkNode (.iface [])]
  cur := []
  outer := [[("void", .type 0), ("int8", .type 1), ("int16", .type 2), ("int32", .type 3), ("int", .type 4),
    ("uint8", .type 5), ("uint16", .type 6), ("uint32", .type 7), ("uint", .type 8), ("bool", .type 9),
    ("char", .type 10), ("real32", .type 11), ("real", .type 12), ("str", .type 13), ("fiber", .type 14),
    ("any", .type 15)]]

end Umka.TypeDecl
