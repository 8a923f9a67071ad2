# Formal model of the Umka interpreter: design

The subject is `vtereshkov/umka-lang` at the commit checked out in `/repo`.  The model is written in Lean 4 (`lean/Verif`).  Nothing of
`/repo` is executed; the only link between model and code is reading, so every definition of a model carries a comment naming the file and
lines it models, and says where it simplifies.

## Conventions

* One directory per area under `lean/Verif/`; inside it
  * `Model.lean` - the code, function by function, with citations;
  * `Spec.lean` - a small specification, independent of the model's helpers (it uses at most the types of the model);
  * `Lemmas*.lean` - helper lemmas;
  * `Props.lean` - the property theorems (names begin with the property's id), each with an `example` that a concrete, non-trivial case meets
    its hypotheses.
* Run-time and compile-time errors of Umka (`error->runtimeHandler`, `error->handler`: a `longjmp`) are a distinct outcome, never a silently
  totalised value.  Undefined behaviour of C is likewise a distinct outcome (`ub`, `oob`) where the code can reach it.
* C `int`/`int64_t` are `Int` with explicit range conditions where wrap-around is irrelevant to the property, and `BitVec` where it matters.
* Loops that need not end are run with a bound that is part of the statement ("for every bound", "some bound suffices").
* If the code violates a property, the negation is proved with a concrete witness (theorem name ending in `_violated`), and the part that
  does hold is proved as `_partial`, with the excluded case in the hypotheses.
* Wrong variants of the models that the theorems were tested against are in `seeded/LOG.jsonl`.

## Trusted base

* The kernel of Lean 4.33.0.  No axioms of our own, no `sorry`, no `native_decide`, no `bv_decide`.  The axioms each theorem depends on are
  listed at the end of this file; they are at most `propext`, `Classical.choice` and `Quot.sound`.
* One area, `Geom`, states its properties with definitions of Mathlib (`Matrix`, `crossProduct`, `Matrix.det`, `Matrix.adjugate`, `Real.sqrt`,
  `Real.sin`, `Real.cos`, `Complex.arg`): what the statements mean depends on these definitions.  Mathlib's proofs are checked by the same kernel.
* The faithfulness of the hand-written models to the C code, checked by reading only.
* The reading of C: two's complement, 64-bit pointers, 8-bit bytes, little endian, `int` of 32 bits; signed overflow, shifts by too much,
  accesses outside of objects and jumps into returned functions are undefined; conversions to narrower signed types wrap around.
* The environment: `malloc` answers unused memory or fails; the C library functions that are called (`strtod`, `sscanf`, `snprintf`, ...) do
  what their standard says, as far as a comment in the model describes it.
* The areas are separate models.  That one area's abstraction is implemented by another's code (e.g. blocks of `DynArr` by pages of `Heap`) is
  argued in comments, not proved, except where an area imports another one (`Peephole` and `Enum` use `Arith`).

## Plan and result per property

Statement, quantifier and anchors are in `properties.jsonl`; theorem names in `MANIFEST.json`.  "partial" always means that the part
that is missing is false of the code (a `_violated` theorem with a witness) or outside the model, as the last column says.

| Id | Property | What is modelled, how it is proved | Status | Remarks |
|----|----|----|----|----|
| C01 | A map behaves as a finite map | Treap with dummy root: search with rotations, insertion, deletion (`Map`). Refinement to a finite map, for every priority oracle. | partial | Full refinement for every lawful key comparison; for int keys whose 64-bit difference overflows the property is false (witness proved). |
| C02 | Maps enumerate their keys in ascending order, exactly once | `doGetMapKeysRecursively` (`Map`): the in-order list is sorted and equals the domain. | proved |  |
| C03 | Map lookup always terminates | The search loop (`Map`): lexicographic measure. | proved |  |
| C04 | copy() of a map is equal and independent | Nodes with addresses (`MapHeap`): every operation refines the tree operation of `Map` and keeps to its own nodes and free addresses; copies are fresh; refinement of a world of map variables to a world of map objects. | proved | Nodes in a memory with addresses, any allocator, any number of variables, any interleaving. The first two theorems need a lawful comparison of keys (see C01); the third does not. Items that are pointers are shared by a copy, as in the program. |
| C05 | sort() permutes and sorts, terminates, and stays inside the array | `qsortPartition`, `qsortEx` with positions in an array, all accesses checked (`Sort`): loop invariants. | partial | Permutation and memory safety for every comparison; termination for every comparison with cmp(x,x)<=0, false without it (witness proved). |
| C06 | sort() honours the full value returned by the comparison function | As C05, with the comparison wrappers. | partial | False for 64-bit results outside int32 (witness proved); proved for results within int32. |
| C07 | sort(a, ascending) orders by the built-in comparison in either direction | As C05, with `qsortFastCompare`. | proved | For any item comparison that is a total preorder. |
| C08 | Dynamic array operations implement list operations | Blocks with headers and all built-in functions on arrays (`DynArr`): refinement to lists and sharing. | partial | False for insert(a, i, a[j]) with structured items, spare capacity and j > i, and for slice with the explicit end index -2147483648 (witnesses proved); proved for every other program, and the exact behaviour is proved for all programs. |
| C09 | append/insert alter in place exactly when the capacity suffices | As C08: all cell accesses are checked. | proved |  |
| C10 | Strings: concatenation, slicing and conversion are exact | String blocks with capacity (`Str`): refinement to byte lists. | partial | False for concatenations whose total length overflows int, for the capacity of strings of 2147482623 bytes or more, and for slice with the explicit end index -2147483648 (witnesses proved); proved for every other program. |
| C100 | The command line does what the usage text says | Area Cmd. `parse` is the loop over the arguments, `session` the rest of `main` over an abstract interpreter. Parameters are a separate inductive type with their spellings; `C100_usage` and `C100_only` are the two halves of a round-trip law, by induction over the parameters and over the arguments; the rest is decision logic over all outcomes of the interpreter. | partial | Proved for all command lines as the usage text describes them, and for exit codes from 0 to 255. False: exit codes beyond 255 lose their high bits, so exit(256) is success for the shell and exit(4294967296) for the host; stack sizes out of the range of int, or followed by other characters, are taken for other sizes; misspelled parameters are taken for the file name. |
| C101 | Dynamic arrays changed in place stay exactly counted | Area ArrRef. Chunks with counts, items and capacities; items are lists of references. Invariant with references from outside and references still to be counted, through increments, through the work list of releases (measure: sum of all counts) and through each operation; the release of an item that is still in its array is compared with the one after its removal. Results by the same case analysis, against `List` functions. | partial | Counts, safety and freeing are proved for all sequences of operations. The result is proved except for insertion of a structured item given by its place in the same chunk after the place where it goes, where it is false (witness proved). Arrays that contain themselves are never freed (witness proved). |
| C102 | Calls of built-in functions follow the documented signatures | Area Builtin. Each parse function as a total function from argument types to an optional result type and code; the specification is an inductive relation of documented signatures; the code is run on a stack of slots. Proved by cases over functions and argument lists. | partial | Calls are accepted exactly by the documented signatures, with the documented types; their code is balanced; constant calls are exactly the listed ones. Two parts are false of the code: sizeof of an expression in a constant expression takes a value from the stack, and sizeof of a type that is not a plain name is refused. |
| C103 | Shutting down releases everything once and reports leaks | Area Shutdown. Pages as linked records with a set of pages given back; deallocators as lists of pointers that they release. Invariant over the three loops: chains of pages stay apart from the pages given back; counters of deallocators against the blocks left. The report of locations by induction over the blocks of a page with the set of locations seen. | partial | Proved for all heaps if deallocators do not use the heap. False of the code otherwise: a deallocator that calls umkaDecRef during umkaFree can make a page be given back twice or used after it has been given back. |
| C104 | The vector and matrix library computes the usual operations | Area Geom. The functions of mat.um over the real numbers, with loops and assignments as in the source; compared with the matrices, cross product, determinant, sine and argument of Mathlib. Attitude: product of three orthogonal matrices; the converse with the adjugate of a rotation. | partial | All parts are proved over the real numbers (rounding is not modelled), except that normalize of a matrix is one step towards orthogonality: it keeps orthogonal matrices and squares small errors, but can lead away from orthogonality. |
| C105 | Queries about the variable behind an interface describe what was converted | Area Self. The built-in functions on the memory, interfaces and types of Iface; what an interface holds after a chain of conversions is proved there (C48), and is combined with the decision of type equivalence (C39) and the recursion of typeHasPtr (Conv). | partial | Proved for all values and pointers and all chains of conversions. selfhasptr differs from its documentation for arrays without items and for maps, and valid is false for a fiber that has finished, although it has been initialized (witnesses proved). That arrays and maps become valid when they are made is not proved here. |
| C106 | A function of the host sees its arguments as they were declared | Area HostArgs. The record shared by all queries is a list of words that the compiler writes and the queries read, with addresses computed from the stored number of parameters; the block written is determined by following the writes (make_eq), and each query is evaluated on it. Nested callbacks by induction over what they do, with the static slot as state. | partial | Types are proved for all declarations; slots for parameters of less than 2 GiB in total (beyond that int overflows, see C31). Functions called when a chunk is freed share one static slot: one that frees another chunk with such a function and looks at its parameter only then finds the other chunk (witness proved). Methods are not modelled. |
| C107 | The host can find out what a type is made of | Area TypeQuery. Each declaration is evaluated on the store of types: it only appends, and the new entries are known exactly (declare_holds). Induction over the declarations, since what is stored is kept by appending; then each query is evaluated. | proved | For all sequences of declarations of pointer, array, dynamic array, map and structure types. Types declared ahead are in the area TypeDecl; limits on sizes are in the area Layout. |
| C108 | Strings made by the host are ordinary strings | Area HostStr. vmMakeStr on the buffers of Str; the new buffer is computed exactly, compared with the one that the built-in conversion of characters makes, and read back. | proved | On the model of strings (area Str). Reference counts of the new strings are not part of it. |
| C109 | A dynamic array made and filled by the host is an ordinary array | Area HostArr. vmMakeDynArray on the storage of DynArr; induction over the items that the host stores, then the program's own reading is evaluated at every index. | proved | On the storage of DynArr; reference counts are left out. |
| C11 | Assigning to a narrow integer is checked | Loads, stores and range checks on 64-bit words and bytes (`Arith`). | proved | All ordinal targets except uint, all sources. For uint targets an out-of-range narrow temporary is stored unchecked (witness proved; outside the stated property). |
| C12 | Integer division and remainder never crash the host | As C11: conversions. | proved |  |
| C13 | Constant folding agrees with run-time evaluation | `constBinary`/`constCallBuiltin` against `doBinary`/`doCallBuiltin` (`Arith`). | partial | Proved for all operators on ordinals; for built-in functions false for atan2 with exactly one zero argument (witness proved), proved for the rest. |
| C14 | Comparison of ints is the mathematical order | `doBinary` on 64-bit words against integers (`Arith`). | partial | False for operands of mixed signedness (witness proved); proved for equal signedness and for mixed operands in 0..2^63-1. |
| C15 | Structured comparison is a lexicographic order | `doCompare` on graphs of types and values (`Compare`): order laws by induction on fuel. | partial | False for int differences that overflow, for infinite reals and for cyclic arrays (witnesses proved); proved for all other values of every comparable type. |
| C16 | Live heap blocks never overlap and start zeroed | Pages, chunks, recycled lists (`Heap`): invariant over all histories of operations. | proved | Assumes malloc answers unused memory and the program uses pointers into memory it was given. |
| C17 | A heap block stays alive while it is referenced | As C16. | proved | Same assumptions as C16. |
| C18 | A weak pointer yields its object or null | As C16: weak pointers. | proved | Same assumptions as C16; fewer than 2^31 allocations. |
| C19 | memusage() reports the allocated heap memory | As C16: total size. | partial | False: a page reused for a smaller size is subtracted with the smaller size (witness proved). Proved: never less than the bytes held. |
| C20 | Reference counts equal the number of references | Work list of `doRefCntImpl` on a memory of words (`RefCnt`): counting invariant. | partial | Proved for every sequence of declarations, releases, allocations and assignments of all types, with targets that are still in use. False for a ^void as the last pointer to a holder of counted values and for a target freed while the right side is evaluated (witnesses proved). In-place changes of array length are the subject of C101; onFree callbacks are not in this model. |
| C21 | Control statements execute as the language defines | Emission with stubs and fix-ups, virtual machine with jumps (`Control`): simulation in both directions. | partial | Proved: every compiled function returns, fails or runs forever exactly as its statements mean. Violated only through the fixed stack size: break/continue out of a type switch leaves a value on the stack at each iteration (proved for every number of iterations), so long loops overflow the stack. Straight-line code is opaque. |
| C22 | The peephole optimizer preserves meaning | Every peephole rule (`Peephole`): each rule preserves the meaning, lifted to whole programs with labels. | partial | Proved for all programs, jumps included, up to the wording of the error for null pointers (witness proved). Removal of redundant result copies: C85. |
| C23 | Compilation never corrupts the compiler's own bookkeeping | Position stack and tables of jumps (`Control`). | partial | False for a switch with 100 cases or a case with 100 constants (witness proved); the exact bound is proved. |
| C24 | Array indexing is bounds checked | Index instructions and constant indices (`Peephole`, `Arith`). | partial | Proved for run-time indices of arrays, dynamic arrays and strings; false for constant indices beyond 32 bits of static arrays (witness proved). |
| C25 | Integer literals denote their exact value or are rejected | Lexer functions on character lists (`Lexer`). | proved |  |
| C26 | Block comments end at the first */ | As C25: comments. | partial | False if an odd number of asterisks precedes the closing */, e.g. /***/ (witness proved); exact behaviour proved for all texts. |
| C27 | Implicit semicolons are inserted exactly where documented | As C25: identifiers and keywords. | proved |  |
| C28 | String and character literals denote the documented bytes | As C25: literals and escapes. | partial | False for the documented escape \e, which denotes the letter e (witness proved); proved for all other escapes. |
| C29 | Operators are recognised by longest match | As C25: implicit semicolons. | proved |  |
| C30 | Structure layout is sound | Structure layout with checked `int` arithmetic (`Layout`). | partial | Proved for every structure type the compiler accepts without int overflow; false near 2 GiB, where the size check admits a structure whose size overflows (witness proved). |
| C31 | Function parameters occupy disjoint stack slots and are addressable by position | As C30: parameters. | partial | Proved if the parameters take less than 2 GiB together; false beyond (witness proved). |
| C32 | Local variables never overlap | As C30: local variables. | partial | Proved if the variables take less than 2 GiB together; false beyond (witness proved). |
| C33 | Calls and returns keep the stack balanced | Frames, calls, returns (`Frame`): invariant of all stacks. | partial | Proved for every compiled program whose callbacks from external functions do not switch fibers; false if one does (witness proved). |
| C34 | The stack cannot overflow silently | As C33: stack limits. | partial | Proved if the slots reserved by sort and the parameters of callbacks fit into the 1024 slots kept free; false for larger items in sort and for calls with more parameters than the stack (witnesses proved). |
| C35 | A pointer to a local variable cannot outlive its function | As C33: frame reference counts. | partial | Proved if pointers to the stack of a fiber are copied and dropped by that fiber or its descendants only; false for pointers to variables of suspended fibers (witness proved). |
| C36 | Fibers resume where they stopped | As C33: fibers. | partial | Proved for fibers switched outside callbacks, with parents alive; false for fibers whose parent is dead and for switches inside callbacks (witnesses proved). |
| C37 | Identifiers resolve to the innermost declaration | Identifier list and block stack (`Scope`): invariant over all declaration histories. | proved | Identifier table modelled with blocks, modules, temporaries moved outside a block, prototypes and forward types; type compatibility is abstract. |
| C38 | Every local variable is released exactly once on every exit path | Declarations, blocks and emitted releases as a tree of code (`Release`): induction over statements. | proved | The part of the parser that declares variables and temporaries, opens and closes blocks and generates releases, for all statements and expressions; code as a tree (jumps: C21). |
| C39 | Type equivalence is an equivalence relation and decidable on recursive types | Type graphs, visited pairs (`Types`): bisimulation. | partial | The check decides structural equivalence (coinductive, names compared by declaration) and terminates on every graph of types; it is reflexive and symmetric. Transitive if one of the outer types contains no declared types; false in general (witness proved). Default values of parameters are compared abstractly. |
| C40 | Module paths are normalised consistently | Path automaton (`Paths`): induction over characters. | partial | Proved for paths whose components are '.', '..' or contain an ordinary name not beginning or ending with a dot and that fit in the buffer. Missing: for other paths the claim is false (C40_other_violated: 'foo./bar' becomes '/foobar'; C40_cut_violated: an over-long path is silently cut). |
| C41 | The sandbox denies file system access | Externals and the file system switch (`Link`). | proved | For the code of every program, all host registrations and libraries. The switch does not cover importing source files or implementation libraries; host functions and libraries are outside the model. |
| C42 | External functions resolve deterministically | As C41: resolution of names. | partial | Names of at most 255 characters (longer duplicates are accepted: C42_long_violated); the documented fallback to the library for a module in a file is not followed when a host function has the same name (C42_priority_violated). C42_unresolved and C42_once assume no function has two prototypes. |
| C43 | Each module is compiled once and import cycles are rejected | Import graph (`Imports`): depth-first traversal with invariants. | proved | For every import graph, finite or infinite. |
| C44 | UTF-8 library round trip | `utf8.um`, statement by statement (`Lib`): bit arithmetic, induction over the string. | partial | encode is UTF-8; decode is its inverse for characters other than NUL and U+FFFD, and stops at the first invalid byte. False for U+FFFD and NUL; decode never ends on (or indexes before) strings with four-byte sequences beyond U+10FFFF; it ends on all others. |
| C45 | The pseudo-random generator never gets stuck | `rand`/`srand` (`Lib`): xorshift is injective. | proved | All call histories from the initial seed with all int64 seeds. |
| C46 | Enumeration and constant auto-numbering | `parseEnumType`, `parseConstDecl` (`Enum`): induction over the declarations. | partial | Exact for all declaration lists whose numbers are below 2^63 (and not negative for uint). False beyond: negative values of uint enumerations, uint values beyond 2^63 and the numbering after the largest int/uint are not rejected. |
| C47 | printf checks its format against its arguments | `typeFormatStringValid`, `doBuiltinPrintf` as automata on characters. | partial | For every format and argument list: the exact success condition, the text written, mismatch is an error, compile-time and run-time checks agree. Violated in three corners where the C library is called outside its contract (percent sign with width, 64-bit conversion of a small integer, %v with length and width); all other calls are proved free of it. |
| C48 | Interface conversions preserve value and type | `Verif/Iface`: the code that the compiler emits for conversions to, between and from interfaces, run on a memory of bytes. By induction over the chain of conversions the interface holds the address and the type of the value; `C48_value_round_trip` and `C48_pointer_round_trip` follow with the decision procedure of C39. `T` and `^T` are the same type in an interface: `C48_*_violated`. | partial | For all chains of conversions and assignments between interfaces: the value comes back unchanged, conversion to another value type is an error and to another pointer type is null. False as stated for T and ^T, which an interface cannot tell apart: an int converted to any can be converted to ^int and the reverse, and in a type switch a ^int takes the case int. The _partial theorems say exactly what happens in these cases. |
| C49 | List assignment evaluates everything before storing | The generated code of list assignments and short declarations, run on a stack machine with a memory and `REG_EXPR_LIST`; induction over the fields and the stores, with the invariant that the temporary list keeps its fields; refinement to a specification without stack, list and register. | proved | Every list length, every overlap of designators, lists of expressions and calls that return lists, assignments and short declarations. The stronger reading (each expression keeps the value it had when it was evaluated) is proved for scalars or expressions without side effects and refuted for a structure followed by an expression that changes it. |
| C50 | for-in visits each item once in order | `for...in` as a statement of `Control` over memory plus hidden variables that the body cannot name (a lifting lemma for all statements); equality with a specification that recurses over the list of keys, on the meaning of the body (all numbers of iterations); composition with C21 for the compiled jumps; C02 for the order of map keys. | partial | Exact meaning of for...in over arrays, dynamic arrays, strings and maps with any body, down to compiled jumps. For sequences the body must not assign the index variable and strings must be shorter than 2 GiB; both are refuted without these conditions. Shrinking an array or deleting a later key inside the loop is shown to break the claim. |
| C51 | Standard list functions | `fnc.um`, trimming (`Lib`): loop invariants with arbitrary side effects of the function. | partial | Functions with side effects that do not change the array itself; the result and the order of the calls. A function that changes the array during transform may cause an index error. |
| C52 | sprintf/repr output is measured exactly | The two passes over a value tree with a bounded buffer. | proved | Both passes of the representation of every value, cyclic ones included, and the growing string of sprintf; lengths are unbounded numbers, the limits near INT_MAX are not modelled. |
| C53 | Increment and decrement agree with adding one | As C11. | partial | False on overflow of narrow types (witness proved); proved whenever the result is in range, and for uint. |
| C54 | A dead interpreter stays dead | API calls, `setjmp` frames and scripts of program behaviour (`Api`): induction over scripts and histories. | partial | Dead for ever: proved. First failure: proved for all histories whose external functions do not call umkaRun. No code afterwards: proved for umkaRun if the failing fiber is the main fiber or the failure is exit. False otherwise: errors in another fiber, umkaCall after a failure (undefined behaviour), the report is overwritten. |
| C55 | Deallocators run exactly once | As C16. | proved |  |
| C56 | Memory still pointed at from the stack is not reused | As C16: candidates. | proved | For the slots that are scanned; which fibers are scanned is modelled separately. |
| C57 | Integer arithmetic is exact or reported | As C14. | partial | False for signed overflow and large shift counts (undefined behaviour, witness proved). |
| C58 | Source text is split into tokens without loss | As C25: whole token lists. | partial | False for 0x followed by a point and a non-digit, where 0x vanishes (witness proved); round trip proved for all texts of well-formed tokens. |
| C59 | The escape check does not stop valid programs | As C33. | partial | Proved outside callbacks of external functions; false inside (witness proved). |
| C60 | Comparison operators are accepted exactly for comparable types | As C39: `typeComparable`. | proved | Sound, complete and terminating on every graph of types. |
| C61 | A call to a function declared ahead by a prototype executes the body given later | As C41: prototypes. | partial | Proved for programs in which no function has two prototypes; with two prototypes calls compiled between them reach an unpatched placeholder (C61_violated). |
| C62 | A method called through an interface is the one declared for the type of the value in it | `Verif/Iface`, as C48: the invariant also says which entry point every method field holds, and that its signature agrees with that of the declared method. | proved | For all types, methods and chains of conversions: the called method is declared for the type with that name, visible, and its signature agrees through a chain of compatible signatures (compatibility is not transitive, C39). |
| C63 | scanf reads back what the format describes | `Verif/Scanf`: the run-time part and a model of the C function, with the format scanner of `Verif/Printf`. When a text has the form of a format is an inductive relation (`Reads`); by induction over the variables each call consumes exactly the part of the text that belongs to its value. The cases that do not work are `C63_*_violated`. | partial | Proved for all texts of the form of the format (numbers, reals, characters, words, blanks, other text) with one C library call per value; the C function is modelled after the standard, strtod is a parameter. False as stated: the number returned is reduced by 1 for every call of the C function that meets the end of the input; %ld and %c with a width write beyond the variable; a word at the end of a string is followed by reading beyond it; text before %s is not compared; numbers out of range and flags are undefined behaviour; reading goes on after a failed conversion. |
| C64 | Expressions are grouped and evaluated as the documented grammar says | `Verif/Expr`: the parser with its code generator, as it is (no syntax tree), and the machine. Specification: the documented grammar as an inductive relation between texts and trees, types and evaluation of trees. Proved: the parser is sound and complete for the grammar (induction over the recursion and over derivations), it emits the code of the tree with all jumps filled in (simulation), and that code evaluates the tree (induction over the tree). | proved | For ordinal and real types (as the quantifier says); a designator (variable, item, field, call) is one token and one instruction that reads and changes anything. Left out of the model: strings, pointers, structured types, closures and their conversions; the temporary variables of && etc. (Release) and the peephole optimizer (Peephole). |
| C65 | &&, || and ?: evaluate only the operands they need | `Verif/Expr`: two environments that differ only in what the designators of the other operand do lead to the same run; from C64. | proved | Same types as C64. Two environments that differ in the designators of the operand that is not needed give the same run. |
| C66 | Constant expressions have the values that evaluation at run time would give | `Verif/Expr`: the same parser in its constant mode; by simulation its result is the strict value of the tree as long as no `&&` or `||` is decided by its left operand, and that value is the one of evaluation. The decided cases are `C66_*_violated`. | partial | Proved, in both directions, for expressions in which no left operand of && or of the logical or decides. Violated otherwise: false && true is cut short after the false and the declaration refused, true \|\| without a right operand is accepted (7 \|\| too, with type int and value 1), and the part of ? : that is not needed must have a value. |
| C67 | A function that declares a result always ends with a return statement | The hasReturn flag of the block around the body (`Control`): a `return` among the statements of the body excludes a normal end, by induction over the statements; with C21 the machine returns to the caller. | proved | C67_result: if compilation succeeds the only possible ending is a return statement, and the machine then returns to the caller. C67_refused: exactly when the check refuses a body. |
| C68 | A called function sees its arguments | `Verif/Call`: signatures, the code of calls and the machine that runs it, with expressions as arbitrary functions of memory; by induction over the arguments the slots are the words that `Spec.evalCall` gives, at the offsets the function uses. | proved | signatures as the compiler builds them; arguments arbitrary code that does not touch the memory the call uses |
| C69 | Calls are accepted exactly if arguments and parameters match | `Verif/Call`: `Spec.sources` distributes arguments over declared parameters; the compiler accepts exactly what can be distributed, by induction; the exception is `C69_variadic_violated`. | partial | false for functions with a structured result and a parameter ..T without argument; proved for all other calls |
| C70 | Array and structure literals have the values of their expressions | `Verif/Call`: code of literals; by induction over the items, with disjoint fields, memory holds the words each expression had at its evaluation. | proved | expressions must not touch the memory of the literal itself, which no variable names |
| C71 | Dynamic array literals and variadic lists have the values of their expressions | `Verif/Call`: code of dynamic array literals; holds if later expressions leave alone what earlier ones refer to; `C71_late_copy_violated` otherwise. | partial | false for structured items if a later expression changes what an earlier one refers to; proved otherwise |
| C72 | Closures capture copies at creation | `Verif/Call`: code of closure literals and of the beginning of their functions; copies of the captured words, by induction over the captured variables. | proved | that nothing else overwrites the copies in the heap is a hypothesis (no name refers to them; lifetime is in the heap areas) |
| C73 | A designator denotes what its selectors select | `Verif/Desig`: `Spec.den` evaluates selectors from left to right on places and values; the compiled code computes it, by induction over the selectors with an invariant that relates compile-time types to places and values. | partial | false for items and fields of weak pointers and of pointers to pointers that are results of functions; methods and interfaces are in other areas |
| C74 | An assignment changes the designated variable and nothing else | `Verif/Desig`: from C73 and the store instruction; paths that part lead to disjoint words, by induction over paths and types. | proved |  |
| C75 | Short assignments evaluate the designator once | `Verif/Desig`: runs of both statements are computed from C73 and compared; `C75_null_increment_violated`. | partial | increments through null pointers are undefined behaviour |
| C76 | Only variables can be assigned | `Verif/Desig`: the flags `isVar`, `isCall`, `isCompLit` characterised by the specification; two violations. | partial | `f()++` for pointer results and `f().x = e` are accepted |
| C77 | Declared types mean what is written | `Verif/TypeDecl`: types are nodes of a graph, names used early are nodes filled in later; induction over type expressions, lists and histories; a specification of what a type expression means in a graph. One violation. | partial | The meaning of declared types is proved in full. The hidden result parameter is as it should be if the names used for results before their declaration are declared structured; `type (P = ^B; F = fn (): B; B = int)` violates it. |
| C78 | Declared types are complete, finite and of the right size | `Verif/TypeDecl`: invariant of all reachable states: sizes by an inductive layout relation, whose existence also gives well-foundedness; two violations. | partial | Completeness, finiteness, marking and names in full; sizes in full except that arrays of no items of a type declared later have alignment 0 and cannot be used for fields (violated); items can be void if declared later (violated). |
| C79 | Types can be used before their declaration exactly where documented | `Verif/TypeDecl`: names in strict positions are visible (accepted lists), and lists that keep the rule fail only with other errors (refused lists); three violations. | partial | Both directions, with what the compiler does differently: scalar results and keys that mention later types are refused, `[0]B` and `C = B` are accepted early. |
| C80 | No type name is declared twice in a block | `Verif/TypeDecl`: from what a single declaration does; one violation. | partial | Within a list, a name whose first declaration is by a not yet declared name can be declared again (violated). |
| C81 | Values are implicitly converted exactly where the reference says so | `Verif/Conv`: the chain of cases against an inductive definition of the rules; one violation. | partial | For all pairs of types, except enumerations mixed with integers or other enumerations where one base type is uint and the other one is signed: the check for uint looks at the base types only, so an int is accepted as an enumeration with the base type uint (C81_enum_violated). |
| C82 | Casts are accepted exactly where the reference says so, and compiling them ends | `Verif/Conv`: by induction over the nesting of dynamic arrays; four violations. | partial | For all types unless dynamic arrays contain themselves in both types, or there are dynamic arrays of enumerations with the base type uint8. Casts between dynamic arrays that contain themselves never end, a cast of a constant dynamic array to an equivalent type is refused, arrays of enumeration constants can be cast to strings. |
| C83 | Converting an array or a list of expressions converts each item | `Verif/Conv`: the generated loop is executed; invariant of the loop. | proved | For all arrays, lists, types and conversions of items. |
| C84 | The operands of an operator are converted to one type, whatever their order | `Verif/Conv`: both conversions of an operator, from the cases of a single conversion. | proved | For all pairs of types and all binary operators. |
| C85 | Function results are handed over without a copy exactly when they are used at once | `Verif/ResultCopy`: the generator of `Peephole` with its notification, on any sequence of requests; an invariant says that a notification holds only as long as the copy is the last thing generated. The state after a hand-over is compared with the state of the same requests without the copy. | proved |  |
| C86 | Global variables, constants and default values start with the values of their initializers | `Verif/Static`: the compiler's storage as blocks of words; `eval` fills them as the parser does. A relation between words and values, with the blocks that belong to each value, is shown by induction over types and expressions to hold after every declaration; disjoint ranges of blocks give independence. | proved | integers, characters, strings, arrays, dynamic arrays and structures |
| C87 | A parameter without an argument has its default value in every call | `Verif/Static`: machine operations on the same blocks. False for dynamic arrays, with programs as witnesses; for all other types an invariant says that blocks of defaults and constant strings cannot be reached or changed. | partial | false for dynamic arrays; proved for all other types |
| C88 | Run-time errors are located in the function and at a line of the code that failed | `Verif/Trace`: the code generator of `Verif/Peephole` with locations (erasing them gives that model). A relation between the states before and after a piece of code (new functions, code kept except for filled-in stubs) is proved by induction over the structure of the program. | partial | file, function and a line of the function proved for all instructions, the line of the last token before for those that can fail; the line of the very statement is false on entry to a function (closing brace) and for external functions |
| C89 | The call stack lists the calls that have not returned | `Verif/Trace`: ghost history of calls over executions of `Verif/Frame`; the invariant of that area gives the frames, which determine the call stack. | partial | calls and functions proved while the body of a function runs; the line is that after the call, and the caller is missing while a frame is set up |
| C90 | A module is accepted without a syntax error exactly when the documented grammar derives it | `Verif/Syntax`: parsers as functions on token lists; the documented grammar and the accepted one as data with a derivation relation. For each parser function, by induction on the nesting depth: what it takes is derived from its rule, and every text of the rule is taken if the text goes on with a token that cannot continue it (first sets are computed). | partial | The parser functions of umka_decl.c and umka_stmt.c are modelled over tokens, with an expression or a designator as one token. For every token sequence, the module is accepted iff it is derived from a grammar that differs from the documented one in 24 rules. The documented grammar itself is violated in both directions: eleven documented modules that are rejected, seven accepted modules that are not documented. |
| C91 | Files hold what has been written to them | `Verif/Files`: the C library's streams as positions in byte lists, std.um on top of it; read and write laws per call (`Put` says what a write does item by item), then sequences of pieces by induction; write-close-open-read as a program. | partial | False for offsets of fseek that do not fit 32 bits, and for feof as documented. Files longer than 2147483392 bytes are not read by freadall. A read right after a write on the same stream and the reverse are undefined in C and excluded. The C library is modelled after the C standard. |
| C92 | File handles are closed once and their misuse is reported | `Verif/Files`: an invariant over all sequences of operations (open streams and the structures that refer to them correspond one to one), with undefined behaviour of the C library as an outcome. | partial | All sequences of operations. Excluded, and shown to be undefined: a closed standard stream used again, a null file name, reading right after writing. |
| C93 | tobytes and frombytes copy values exactly | `Verif/Files`: `tobytes` and `frombytes` on variables as byte lists. | partial | False for variables of size zero. |
| C94 | Numbers survive conversion to strings and back | `Verif/Convert`: the four functions as compositions of the models of `sprintf` and `sscanf`; the theorems of these areas give the texts and the values. | partial | Violated as stated: a number at the beginning of the string that int cannot hold makes atoi undefined behaviour, because sscanf of C is (C11 7.21.6.2p10). Everything else is proved, over the models of printf and scanf (areas Printf and Scanf). The text of a real is whatever printf of C makes of it and the real read is whatever sscanf of C finds; both are parameters of the model. |
| C95 | The compiler warns about unused and shadowing names exactly where it should | `Verif/Warn`: an invariant relates the marks of the identifiers alive to the declarations of the text and to the uses so far; it is kept by every operation, so the warnings at the end of a block or module are the ones the text deserves. Shadowing is compared with the nest of scopes of area Scope. | proved | On the model of names and blocks (area Scope). A declaration that completes a type or function declared ahead has no report of its own: the report concerns the declaration ahead (hypothesis New). Declarations have distinct places. |
| C96 | The listing of a compiled program is complete | The two passes of the listing are modelled with the buffer, the remaining sizes and `snprintf` that truncates. Every nested call is shown to be a sequence of texts put one after another at the right offset; the first pass gives the length; an invariant says that the buffer shows the text so far, as much of it as fits. The sequence of texts is proved equal to a listing specified line by line. | partial | The listing is complete and free of undefined behaviour for every program, except that the last end of line is never returned: the second pass is given the length without the terminating zero (C96_last_violated). |
| C97 | The host finds exactly the functions that the program declares | The lookup is modelled on top of the models of names and paths. An invariant over all histories of declarations says that at the top level no two declarations of a module clash with each other or with predeclared names; with it the first identifier found is the only declaration, and the answer is characterised by the declarations of the program (the nest of scopes of C37), not by the order of the list. | partial | Exact for the main module and for exported functions of modules that it imports. Violated: exported functions of modules imported only indirectly are not found; a module path above the root jumps to a stale jump buffer. |
| C98 | Messages spell every type as it would be written, cut to the size of their buffer | The recursive function is modelled with its buffers, the count of characters and the exact semantics of snprintf and strncat; a write behind the end of a buffer is a distinct outcome. The specification is the spelling without buffers. The proof is by induction over types with the relation that a buffer shows a text: it holds the first 255 characters and the count agrees as long as it matters. | partial | Exact for all types: which spellings are shown in full, which are cut and which overflow. Violated: the spelling of a pointer or dynamic array whose base has a spelling of 250 to 255 characters writes behind the end of the buffer on the stack. |
| C99 | Call and return hooks are reported in nested pairs, fiber by fiber | Area Hooks. The machine of Frame emits an event when it executes an instruction that sets up or removes a frame. `pending` is a host that follows the events with a stack of its own. Invariant by induction over executions, on top of the invariant of Frame: for each living fiber, this stack is the list of functions of the return addresses in its frames, with the running function on top. `C99_reports` joins this with the locations of Trace. | partial | Proved for each fiber by itself. False of all fibers together: reports do not tell the fiber they come from, and a main function may return while a fiber is suspended. Missing: the returns of functions that an error, or exit(), leaves are never reported; hooks that are changed during the execution; the claim that every entry of a frame lies in a function of the table is a hypothesis of C99_reports. |

## What is modelled and what is not

| Area | Code | Left out or simplified |
|----|----|----|
| `Map` | `umka_vm.c`: `doGetMapNode`, `doRebalanceMapNodes`, keys, delete, `umka_api.c` access to map items | Addresses of nodes; reference counts; the random priorities are an arbitrary oracle |
| `Sort` | `qsortSwap`, `qsortPartition`, `qsortEx`, `qsortCompare`, `qsortFastCompare` | Comparison functions that change the array; depth of the C stack |
| `Heap` | pages, chunks, recycled pages, blacklisted chunks, weak pointers, `memusage` | 32-bit counter overflow; `onFree` is recorded, not executed |
| `Arith` | `doDerefImpl`, `doAssignImpl`, `typeConvOverflow`, `doUnary`, `doBinary`, short assignments, `++`/`--`, `constUnary`, `constBinary`, numeric built-in functions | Real numbers are abstract |
| `Compare` | `doCompare`, `constCompare` | Memory is read through typed accessors |
| `DynArr` | `make`, `append`, `insert`, `delete`, `slice`, `copy`, `len`, `cap`, conversions of arrays, indexing | Reference counts; blocks are never reused; `malloc` does not fail |
| `Str` | string allocation, `+`, `+=`, `slice`, `copy`, `len`, `cap`, conversions, indexing, literals | As `DynArr` |
| `Lexer` | all of `umka_lexer.c` | Line and column numbers; the value of real literals (text only) |
| `Layout` | `typeAddField`, `typeResizeArray`, `typeMakeStackFrameLayout`, `identAllocStack` | - |
| `Control` | statement parsing and code generation for `if`, `switch`, `for`, `break`, `continue`, `return`, short circuit, `?:`; jumps | Straight-line code is one opaque instruction |
| `Peephole` | all `optimize*` rules of `umka_gen.c` | `genTryRemoveImmediateEntryPoint`, removal of result copies; stack limit; operands are unbounded |
| `RefCnt` | `doRefCntImpl`, `doRefCntAssign`, releases, allocation, weak/strong conversions | In-place changes of array length; `onFree`; counter overflow; pointers to locals of child fibers |
| `Frame` | calls, frames, fibers, `vmCall`, stack checks, escape check | Data instructions are opaque; hooks; fibers are not deallocated |
| `Scope` | `identAdd*`, `identFindEx`, `identFree`, `identMoveBefore`, forward types, prototypes, blocks | Types are numbers; warnings |
| `Release` | `doGarbageCollection*` and all callers | Code is a tree; `else if` is `else { if }` |
| `Types` | `typeEquivalentRecursive`, `typeComparable`, signatures | Default values are abstract |
| `Paths` | `moduleRegularizePath`, `moduleNameFromPath` | Windows variant |
| `Link` | prototypes, function bodies, externals, file system switch | Function bodies are reduced to calls; prototypes fit |
| `Imports` | `parseImport*`, `moduleFind*`, `moduleAdd` | Paths and names are numbers |
| `Lib` | `rand`, `srand`, `trim`, `fnc.um`, `utf8.um` | `mat.um`, dates, formatting |
| `Enum` | `parseEnumType`, `parseConstDecl` | Syntax errors |
| `Api` | `umkaInit`, `umkaCompile`, `umkaRun`, `umkaCall`, errors | Programs are scripts of errors, exits, fiber switches and nested calls; `umkaFree`, hooks |
| `Printf` | `typeFormatStringValid`, `typeCompatiblePrintf`, `typeConvOverflow`, `parseBuiltinIOCall`, `doPrintIndented`, `doFillReprBuf`, `doPrintSlot`, `doBuiltinPrintf` | The conversions of the C library are a parameter; lengths are unbounded numbers; what C leaves undefined is an outcome of its own |
| `MapHeap` | The functions of `Map` again, with `doCopyMapNode` and `doBuiltinCopyMap`, on a memory of nodes linked by pointers; any number of map variables | Key and item of a node are part of the node; copies are shallow in the items; reference counts; the choice of a free address is a parameter; maps no longer used stay allocated |
| `ForIn` | `parseForInHeader`, `parseForStmt` (umka_stmt.c:871-1128) as statements of `Control`; item access with the range checks of `doGetArrayPtr`, `doGetDynArrayPtr`, `doGetMapPtr`; `keys()` and `len()` of `Map` | arrays and maps are found by reference, strings are values; no reference counts |
| `ListAsg` | `parseExprList` (umka_expr.c:3171-3260), `parseListAssignmentStmt`, `parseListDeclAssignmentStmt` (umka_stmt.c:220-400) with the instructions they generate, on a memory of words | Words instead of bytes; designators, expressions and calls are opaque code; conversions of scalars only; no reference counts |
| `Iface` | `doPtrToInterfaceConv`, `doInterfaceToInterfaceConv`, `doValueToInterfaceConv`, `doInterfaceToPtrConv`, `doInterfaceToValueConv`, `doEscapeToHeap` (umka_expr.c:119-129, 354-501), method selection and type switches, with the instructions they generate (`doAssertType`, `doCallIndirect`, …), on a memory of bytes | Reference counts; conversions of arrays of interfaces; `weak` pointers as receivers |
| `Scanf` | `doBuiltinScanf`, `fsscanf`, `fsscanfString`, `fsgetc` (umka_vm.c:784-845, 2112-2208), `typeCompatibleScanf`, the check of literal formats; `scanf` of C after C11 7.21.6.2 | `strtod` is a parameter; string variables without their heap blocks; read errors; lengths are unbounded |
| `Expr` | `parseExpr`, `parseLogicalExpr`, `parseLogicalTerm`, `parseRelation`, `parseRelationTerm`, `parseTerm`, `parseFactor` (umka_expr.c:2764-3167), `doApplyOperator`, `doImplicitTypeConvEx` for ordinal and real types, the jumps they generate (umka_gen.c:928-990, 1090-1105) and the instructions that run them (umka_vm.c) | designators are one token and one instruction; strings, pointers, structured types, closures; what operators do with values is a parameter (for integers: `Arith`) |
| `Call` | `parseSignature`, `parseTypedParamList` (umka_decl.c:83-247), `typeAddParam`, `typeParamOffset` (umka_types.c:805-847), `parseActualParamsAndCall`, `parseVariadicParamList`, `parseArrayOrStructLiteral`, `parseDynArrayLiteral`, `parseClosureLiteral` (umka_expr.c:1715-2345), the beginning of `parseFnBlock` (umka_stmt.c:1300-1328) and the instructions they generate (umka_vm.c), on a memory of words | Words instead of bytes; expressions, conversions and bodies of functions are opaque code with memory effects; types are abstract; no reference counts; constant literals; map literals |
| `Desig` | `parseDesignator`, `parseSelectors` and the selectors, `doTryImplicitDeref` (umka_expr.c:93-106, 1921-1973, 2383-2717), designators and `&` in `parseFactor`, `parseSingleAssignmentStmt`, `parseShortAssignmentStmt`, `parseIncDecStmt`, `parseSimpleStmt` (umka_stmt.c:195-217, 289-312, 420-480), `doDerefImpl`, `doAssignImpl`, `doGetArrayPtr`, `doGetDynArrayPtr`, `doGetMapPtr`, `doGetFieldPtr` | Words instead of bytes; methods, interface members and everything up to the last call are opaque code; no reference counts; types of index expressions |
| `TypeDecl` | `parseType` and the functions it calls, `parseTypeOrForwardType`, `parseTypeDecl`, `parseSignature` (umka_decl.c:16-36, 75-560), `identAddType`, `identTryResolveForwardType` (umka_ident.c:149-247), `typeAddField`, `typeAddParam`, `typeResizeArray`, `typeEnableForward`, `typeComparable` (umka_types.c) | The input is a syntax tree; enumerations, default values, exports, module prefixes; types that only the compiler refers to are not nodes of their own |
| `Conv` | `doImplicitTypeConvEx`, `doAssertImplicitTypeConv`, `doExplicitTypeConv`, `doDynArrayToDynArrayConv`, `doExprListToExprListConv`, the checks of the conversions to interfaces, `doApplyOperator`, `parseTypeCast` (umka_expr.c:262-797, 1977-1994), `typeHasPtr`, `typeValidOperator`, `typeImplicitlyConvertibleBaseTypes`, `typeExplicitlyConvertibleBaseTypes` | The conversions of single values are opaque (see `Str`, `Arith`, `DynArr`, `Iface`, `RefCnt`); values of constants; the recursion has a bound, reaching it is an outcome of its own |
| `ResultCopy` | `doCopyResultToTempVar`, `doTryRemoveCopyResultToTempVar`, `doTryOptimizeIncRefCnt`, `doTryOptimizeRefCntAssign` (umka_expr.c:41-90), `genCopyResultToTempVar`, `genTryRemoveCopyResultToTempVar`, notifications (umka_gen.c:12-28, 1171-1200), `identAllocStack`, `identAllocVar`, `identAllocTempVar`, `identFree`, `doGarbageCollection…`, on top of `Peephole` | Instructions without optimizer rules are opaque; that an expression is parsed between the end of a block and the next use of a value is an assumption (`Proper`) |
| `Static` | `storageAdd`, `storageAddStr`, `storageAddDynArray` (umka_common.c:48-145), `constAssign`, `constDeref` (umka_const.c), constant branches of `parseArrayOrStructLiteral`, `parseDynArrayLiteral`, `parseExprList`, conversions of constants (umka_expr.c), declarations of variables, constants and default values (umka_decl.c:163-185, 588-700, umka_stmt.c:192-400), empty variadic lists (umka_expr.c:1874-1890); at run time calls with defaults, selection, assignment, `+=` of strings, `append`, `delete` | no padding, reals, pointers, maps, interfaces, closures or recursive types in initializers; nothing is freed |
| `Trace` | the source location of every instruction: `genAddInstr` and all optimizing generators with locations (umka_gen.c:68-505, 926-1202), `lexNext` (line), `parseFnBlock` (umka_stmt.c:1280-1376), function literals (umka_expr.c:2356-2367), prototypes, imports, `doResolveExtern` (umka_stmt.c:73-137), `parseProgram`; `runtimeError`, `stackUnwind`, `umkaGetCallStack` over the machine of `Frame` | statements are sequences of tokens, instructions, calls, jumps and blocks; the disassembler's output and warnings are not modelled |
| `Syntax` | the order in which tokens are taken by `parseProgram`, `parseModule`, `parseImport`, `parseDecls` and all the functions they call (umka_decl.c:39-939), `parseStmtList`, `parseStmt` and all statements, the lookaheads (umka_stmt.c:135-189, 437-1380), `parseDesignatorList`, `parseExprList`, `parseQualIdent` (umka_expr.c), `lexEat` (umka_lexer.c:951-968) | an expression or a designator is one token; names, types and constants are not checked; `=` may be omitted after any constant of a group; no limits on the lengths of lists |
| `Files` | `fopen`, `fclose`, `fseek`, `ftell`, `remove`, `feof`, `fflush`, `freadwrite`, `freadall`, `tobytes`, `frombytes`, `stdin`, `stdout`, `stderr` (std.um), `rtlfopen` … `rtlfflush`, `rtlOnFreeFile` (umka_runtime.c:11-19, 62-254) | The C library after the C standard and POSIX: unbuffered, no text mode conversions, `fclose` and `fflush` do not fail; texts of errors; reference counts of `File` (an operation `free`) |
| `Convert` | `atoi`, `atof`, `itoa`, `ftoa` (std.um, `umka_runtime_src.h:319-340`) over the models `Printf` and `Scanf` | The C library renders and recognises reals (parameters); a precision beyond what C accepts is rendered like any other; the source of `atoi` is the characters and what follows them in the block. |
| Warn | `umka_ident.c:31-45, 87-88, 191-252, 392-410`, `umka_stmt.c:64-132` | the marks of used identifiers, the warnings about unused and shadowed identifiers at the ends of blocks and modules | on top of area Scope; a warning is its kind and the place of the declaration; compilations that end with an error are left out |
| Asm | `umka_api.c` umkaAsm; `umka_compiler.c:288-300` compilerAsm; `umka_gen.c:1206-1243` genAsm; `umka_vm.c:4217-4316` vmAsm; `umka_ident.c:422-434` identSpellingByPtr | Names of opcodes, registers and built-in functions, type spellings, texts of reals and addresses are parameters; `snprintf` of C writes the text given; lengths are unbounded numbers (no overflow of `int`). |
| GetFunc | `umka_api.c:172-175` umkaGetFunc; `umka_compiler.c:323-343` compilerGetFunc; `umka_common.c:266-272` moduleFind; on top of Scope (`identFindEx`) and Paths (`moduleRegularizePath`) | The function is denoted by the place of its declaration; the context itself (`compilerMakeFuncContext`) is part of Call. |
| Spell | `umka_types.c:34-37, 882-975` typeSpelling, typeSpellingRecursive, with the behaviour of `snprintf` and `strncat` on their buffers | A type is the finite tree that is walked through; `struct`, `interface` and basic types are spelled by their kinds, as in the code. |
| Hooks | `umka_api.c:203-206` umkaSetHook; `umka_vm.c:959-966` doHook, `4029-4030` and `4042-4043` its calls in doEnterFrame and doLeaveFrame; `4327-4330` vmSetHook; on top of Frame (the machine) and Trace (the locations) | Both hooks are set before the program starts and are not changed; a hook function only takes notes. |
| Cmd | `umka.c:10-15, 79-98, 127-213` main, printRuntimeError; `umka_api.c:49-61, 103-114` the result of umkaRun; `umka_vm.c:3081-3087` doBuiltinExit; `umka_compiler.c:230-242` and `umka_runtime_src.h:418-424` the arguments of the script | The interpreter is a parameter: whether its steps succeed and how the script ends. `strtol` is the number reader of Scanf with the range of a 64-bit `long`; conversions to `int` are modulo 2^32; the shell sees the low 8 bits of the exit code. |
| ArrRef | `umka_vm.c:1437-1469, 2224-2289, 2380-2402, 2438-2578, 2644-2720` doAllocDynArray, doGetEmptyDynArray, doBuiltinMake, MakeFromArr, CopyDynArray, Append, Insert, DeleteDynArray, Slice as far as counts go; `1218-1400` doRefCntImpl on dynamic arrays; `3288-3317` doRefCntAssign | All counted references are to dynamic arrays; items are lists of references; sizes are not limited; indices are not negative; a chunk is freed before its items are released; hidden result variables are null before; the sides of an assignment have been evaluated. |
| Builtin | `umka_expr.c:925-1713` parseBuiltinCall and the functions it calls except input and output; effects on the stack from `umka_vm.c:2212-3087` | Arguments are given by their types; conversions, equivalence and comparability of types are parameters with three laws; messages of errors are not modelled. |
| Shutdown | `umka_vm.c:340-444` pageLeakSan, pageFree; `447-451, 595-666, 744-780, 4345-4348` pageMoveToRecycled, pageRemove, pageFind, chunkRefCnt, vmDecRef as called by deallocators | Pages are linked records; use of a page after free is undefined behaviour; blocks hold no typed references; a page without references is recycled, never blacklisted; texts of messages are left out. |
| Geom | `umka_runtime_src.h:472-573` the library module mat.um | Numbers of the type real are real numbers (no rounding, overflow or NaN); sqrt, sin, cos and atan2 are the mathematical functions of Mathlib. |
| Self | `umka_vm.c:2902-2999` sizeofself, selfptr, selfhasptr, selftypeeq, valid | Memory, interfaces and types are those of Iface; typeHasPtr is that of Conv; whether a fiber is alive is a parameter. |
| HostArgs | `umka_api.c:286-308, 337-351` umkaGetParam, umkaGetUpvalue, umkaGetResult, umkaGetParamType, umkaGetResultType; `umka_types.c:847-874` typeMakeStackFrameLayout; `umka_common.h:172-223`; `umka_vm.c:182-212, 753-757` doGetOnFreeParams and its calls | Memory of the record as a list of 64-bit words; slot arithmetic is that of Layout; methods and results of types declared later are left out; of callbacks only what they read and free. |
| TypeQuery | `umka_api.c:329-334, 354-379` umkaGetBaseType, umkaGetFieldType, umkaGetMapKeyType, umkaGetMapItemType; `umka_types.c:114-133, 174-187, 649-662, 674-733`; `umka_types.h:421-429, 479-488`; `umka_decl.c:250-305, 371-436` | Types are places in a store that only grows; sizes, lengths of arrays, comparability of keys and types declared ahead are left out. |
| HostStr | `umka_api.c:234-245` umkaMakeStr, umkaGetStrLen; `umka_vm.c:4361-4369` vmMakeStr | Strings are those of Str; host memory is a list of bytes; reference counts are left out. |
| HostArr | `umka_api.c:248-260` umkaMakeDynArray, umkaGetDynArrayLen; `umka_vm.c:4372-4379` vmMakeDynArray | Storage is that of DynArr; reference counts are left out; the host's stores go through the data pointer one item at a time. |

Not modelled at all: the parsing of expressions as such (syntax errors in them), generics of closures' captured
variables, the rest of `umka_runtime.c`, Windows code, loading of shared
libraries.

## Findings about the code

Where a property is false of the code, with the theorem that proves it, or an observation made while modelling (marked "read only": not
proved).

* Maps, sorting: integer keys and `sort` comparisons use 64-bit differences or truncation to `int` (C01, C06, C15); `sort` with a comparison
  that is not reflexive may not end (C05).
* Arrays: `insert(a, i, a[j])` may insert the wrong item; `slice` with the explicit end -2147483648 (C08, C10); `append` and `slice` on a null
  array change `valid(a)` (read only).
* Strings: the length of a concatenation overflows `int` (C10).
* Numbers: constant folding of `atan2` differs from run time (C13); mixed signedness (C14); narrow `++` wraps around (C53); signed overflow
  and large shifts are undefined (C57); a narrow temporary out of range is stored in a `uint` unchecked (C11); `T(e)` to the same type is not
  checked (read only).
* Heap: `memusage` after reuse of a page for smaller chunks (C19); a `^void` as the last pointer leaks; a target freed while the right side is
  evaluated is released twice (C20); cycles leak (by design); the candidate stack of `doRefCntImpl` is not reentrant if `onFree` calls
  `umkaDecRef` (read only).
* Control: `break` out of a type switch leaves a slot on the stack (C21); a switch with 100 cases overruns the position stack (C23); constant
  indices are cut to 32 bits (C24); wording of the null pointer error (C22).
* Lexer: `/***/` does not end (C26), `\e` is `e` (C28), `0x.` (C58).
* Layout: sizes near 2 GiB overflow (C30-C32).
* Fibers and callbacks: switching fibers inside a callback (C33, C36, C59), slots used by `sort` and parameters of `umkaCall` are not checked
  against the stack (C34), pointers to locals of suspended fibers (C35), a fiber whose parent is dead (C36).
* Types: equivalence is not transitive through unnamed types (C39).
* Interfaces: a value of type `T` and a pointer of type `^T` look the same: conversion of the one to the other succeeds, and in a type switch
  `case int` takes a `^int`, so that a later `case ^int` is unreachable (C48).
* `scanf` (C63): the result is one less for each call of the C function that meets the end of the input, so `sscanf("1", "%lld%lld", …)` returns 0
  and `sscanf("42", "%lld;", …)` too; `%ld` stores 8 bytes in an `int32`, `%5c` 5 bytes in a `char`; after a word that ends the string reading goes
  on beyond the NUL; text in front of `%s` is ignored; flags are accepted and undefined; numbers out of range are undefined; after a conversion
  that fails the others are still tried.
* Constant expressions: the compiler does not read the right operand of `&&` and `||` if the left one decides: `const a = false && true` is refused
  (`true` is left over), `const a = true ||` and even `const a = 7 ||` (an `int` 1) are accepted; `true ? 1 : 1 / 0` is refused although the
  last part is "skipped" (C66);
* Calls: `fn f(xs: ..int): P` with a structured result cannot be called as `f()` ("Too few actual parameters"), since the check looks at the last
  parameter, which is then the hidden `#result` (C69).
* Items of `[]P{...}` and of variadic lists are copied only after the last one has been evaluated: in `[]P{p, f()}`, where `f` changes `p`, the first
  item is the changed `p`; in `[2]P{p, f()}` and in an ordinary argument list it is not (C71).
* Modules: `foo./bar` becomes `/foobar`, `...` vanishes, paths over 255 characters are cut (C40); duplicates of names longer than 255
  characters are accepted, library fallback (C42); two prototypes of a function leave an unpatched stub: "Illegal instruction" (C61).
* Library: `utf8.decode` may run forever or index before the string; U+FFFD and NUL are lost (C44).
* Enumerations: negative values of a `uint` enumeration, `uint` values beyond 2^63 and overflow of the numbering are not rejected (C46).
* API: an error in another fiber leaves that fiber current, so that `umkaRun` runs code in a dead interpreter; `umkaCall` after a failure
  jumps into a returned function; an `umkaRun` inside an external function makes every later error undefined; the report is overwritten (C54).
  `umkaAddModule`, `umkaAddFunc` and `umkaFree` have no `setjmp` at all (read only).
* printf: `%5%` is accepted and passed to C; `%lld` of a small integer makes C read 64 bits of a 32-bit argument; `%5lv` becomes `%5 s` (C47).
* for...in: the index variable is the loop counter, so a body that assigns it skips items or never ends; an array that the body shortens stops the
  program; a map key that the body deletes before its turn is visited with value zero and put back; strings of 2 GiB and more stop the program
  (C50).
* List assignment: a structured expression is copied only after all expressions have been evaluated, so `t, y = s, f()` stores what `f()` made of
  `s`, whereas a scalar `s` keeps its old value (C49).
* Increment: `p^++` writes through a null pointer without a check, while `p^ += 1` reports it (C75); `f()++` is accepted if `f` returns a pointer, though
  `f() = 1` is refused; `f().x = 1` and `T{...}.x = 1` assign to a temporary (C76).
* Selectors: `f().x` is refused if `f` returns a weak pointer, and follows two pointers if it returns a pointer to a pointer; variables of these types
  behave the other way round (C73).
* Type declarations: after `type (P = ^B; F = fn (): B; B = int)` functions of type `F` have a hidden result parameter although the result is an
  integer (C77); `[0]B` with `B` declared later has alignment 0 and cannot be a field, `[]V` with `V = void` declared later is accepted (C78);
  `type (F = fn (): B; B = int)` and `type (M = map[[]B]int; B = int)` are refused although documented, `[0]B` and `C = B` are accepted early although not
  documented (C79); `type (P = ^A; B = A; A = int; B = real)` declares `B` twice (C80).
* Conversions: `int` is accepted where an enumeration with the base type `uint` is expected, a default enumeration where `uint` is expected (C81);
  `U(t)` for `type (T = []T)`, `type (U = []U)` makes the compiler recurse without end, as does `[]A(a)` for `type (A = [][]A)`, where the types are
  equivalent; `[]int([]int{1})` is refused in a constant expression; `str(a)` is accepted for an array of enumeration constants of the base type
  `uint8` (C82).  Undocumented: `null` is accepted for every interface.
* Default values: a default dynamic array, and the empty array of a variadic parameter without arguments, is one array for all calls (of one place in the
  second case): after `a = append(a, 1)` or `a[0] = 7` in the function the next call starts with the changed array (C87).
* Locations: a stack overflow on entering a function is reported at the line of its closing brace, since the frame instruction is written when the
  function ends; errors in external functions are reported in function `<unknown>` at the last line of the module (C88).  The call stack gives the
  line of the instruction after the call, which can be that of the next statement, and lacks the caller if the frame of the callee could not be set up
  (C89).
- The documented grammar and the parser disagree in both directions (C90). Rejected although documented: `x := 1, 2`, `var x: int = 1, 2`, export marks on
  fields and on variables of blocks, parameters after a variadic parameter or without a default value after one with it, designators other than calls as
  statements, assignments to calls, functions declared in blocks, `return` without a value right before the next `case`, and `case fn():` in a type switch
  (the colon is taken as the start of the result type).  Accepted although not documented: empty modules, blocks and statements, a last semicolon that is
  omitted or added, variables without initial values, constants of a group without values, a declaration after the condition of `for`.
- C91: `rtlfseek` converts the offset to a 32-bit `int`: `fseek(f, 4294967296, .begin)` reports success and moves to the beginning
  (`C91_seek_violated`).  `feof` is documented as telling whether the position is at the end, but is false after all bytes have been read
  (`C91_feof_violated`).
- C92: `stdout()` stores the C stream in its static structure at each call, so after `fclose(stdout())` the next `stdout()` is a handle to a closed stream
  (`C92_std_violated`).  `fopen` and `remove` pass an uninitialised string to the C library as a null pointer (`C92_null_name_violated`).  Reading right
  after writing, and the reverse, is left to the program although it is undefined in C (`C92_direction_violated`).
- C93: `tobytes` of a variable of size zero is a run-time error (`C93_empty_violated`).
- C94: `atoi` of a string that begins with a number `int` cannot hold is undefined behaviour, because `sscanf` of C is (`C94_range_violated`).
- **C96** (`C96_last_violated`): the listing returned by `umkaAsm` always lacks its last end of line: the second pass passes the length without room for the terminating zero (`umka_compiler.c:288-300`), so `snprintf` drops the last character. `C96_lost` proves that nothing else is lost.
- **C97** (`C97_indirect_violated`): `umkaGetFunc` does not find an exported function of a module that the program contains but the main module does not import itself, because the lookup uses the import list of the main module.
- **C97** (`C97_path_violated`): `umkaGetFunc` with a module path that leads above the root calls the compile-time error handler, which jumps to the jump buffer of `umkaCompile`, which has returned: undefined behaviour (`umka_common.c:508-512`, `umka_api.c:35-46`).
- **C98** (`C98_overflow_violated`): for pointers, weak pointers and dynamic arrays `typeSpellingRecursive` does not count the characters of the prefix (`snprintf` without `len +=`, `umka_types.c:952`), so the following `strncat` may write up to six bytes behind the end of the buffer on the stack, for example in an error message about a pointer to a type whose name has 255 characters. `C98_overflow` proves that these are the only cases.
- **C99** (`C99_fibers_violated`): a hook is not told the fiber. If a main function returns while a fiber it has resumed is suspended, its return is reported while the function of the fiber is the last one reported as called, so a host that keeps one call stack from the reports loses track of it.
- **C100** (`C100_exit_violated`): `exit(code, msg)` passes its 64-bit code as a C `int`: after `exit(4294967296, "failed")` `umkaRun` returns 0 and the message is not shown; after `exit(256, "failed")` the message is shown and the shell sees success.
- **C100** (`C100_stack_violated`): `-stack 4294967297` means a stack of one slot, `-stack 64k` one of 64 slots: the result of `strtol` is truncated to `int` and the end of the number is not checked (`umka.c:147`).
- **C100** (`C100_unknown_violated`): a misspelled parameter, such as `-sandbx`, is taken for the file name, and the file name for a parameter of the script.
- **C101** (`C101_insert_violated`): `insert(x, 0, x[1])` inserts `x[0]` when there is room in the array and its items are structured, such as arrays: the source is read after the items have been moved (`umka_vm.c:2525-2526`). The counts stay exact (`C101_exact`).
- **C101** (`C101_cycle_violated`): an array that contains itself through its items is never freed, as usual for reference counts.
- **C102** (`C102_sizeof_const_violated`): `sizeof` of an expression in a constant expression, as in `const n = sizeof(2 + 3)`, generates a `POP` although nothing was pushed (`umka_expr.c:1415-1416`: `genPop` is not guarded by `!constant`).
- **C102** (`C102_sizeof_type_violated`): `sizeof(T)` is refused for types that are not plain names, such as `[]int` or `m::T` (`umka_expr.c:1394-1408`).
- **C103** (`C103_double_free_violated`): `pageFree` saves `page->next` before it calls deallocators (`umka_vm.c:408, 421`). If a deallocator releases the last reference on that next page, the page moves to the recycled list, and is given back by both loops.
- **C103** (`C103_use_after_free_violated`): `pageFree` does not advance `pages->first`, so `umkaDecRef` in a later deallocator walks pages that have been given back. After a run-time error all data are still in the heap, so this is the usual case for deallocators that release other data.
- **C104** (`C104_orthogonalized_violated`): `normalize` of a matrix is documented as "Orthogonalized matrix", but it takes a single step of an iteration: three times the identity becomes minus nine times the identity.
- **C105** (`C105_hasptr_violated`): `selfhasptr` is documented to tell whether a type is, or has as item or field type, a pointer, string, dynamic array, interface or fiber. It is true for maps, too, and false for arrays without items, whatever their item type.
- **C105** (`C105_valid_violated`): `valid` is documented to tell whether a variable has been initialized, but it is false for a fiber whose function has returned.
- **C106** (`C106_onfree_chunk_violated`): the parameter of functions called when a chunk is freed lies in one `static` slot. A callback that drops the last reference to another chunk with a callback, and calls `umkaGetParam` only then, gets the other chunk, which has been freed.
- **C106** (`C106_onfree_upvalue_violated`): in such a callback `umkaGetUpvalue` gives the slot of the chunk pointer; reading it as `any` takes two slots where there is one.

## Axioms of each theorem

As printed by `#print axioms`, for the theorems of `MANIFEST.json`.

* none: `Layout.Props.C30_negative_size_rejected`, `Layout.Props.C30_overflow_violated`, `Layout.Props.C31_overflow_violated`, `Control.Props.C23_too_many_gotos`, `Control.Props.C23_switch_violated`, `Frame.Props.C34_host_violated`, `Link.Props.C42_priority_violated`, `Files.Props.C91_remove`.

* `propext`: `Arith.Props.C13_constant_storing`, `Arith.Props.C13_builtins_partial`, `Arith.Props.C13_atan2_violated`, `DynArr.Props.C08_insert_alias_violated`, `DynArr.Props.C08_slice_min_violated`, `Layout.Props.C32_overflow_violated`, `RefCnt.Props.C20_void_pointer_violated`, `RefCnt.Props.C20_stale_target_violated`, `RefCnt.Props.C20_cycle_leaks`, `Link.Props.C41_stream_kinds`, `Link.Props.C61_violated`, `Lib.Props.C44_replacement_violated`, `Lib.Props.C44_nul_violated`, `Lib.Props.C44_terminates_violated`, `Lib.Props.C44_index_violated`, `Lib.Props.C51_pure`, `Lib.Props.C51_transform_violated`, `Enum.Props.C46_range_violated`, `Enum.Props.C46_wrap_violated`, `ListAsg.Props.C49_values_in_order_partial`, `ListAsg.Props.C49_structure_copied_late_violated`, `Control.Props.C67_refused`, `Call.Props.C69_variadic_violated`, `Desig.Props.C73_pointer_results_violated`, `Desig.Props.C76_increment_call_violated`, `Desig.Props.C76_temporary_violated`, `Static.Props.C87_append_violated`, `Static.Props.C87_variadic_violated`, `Static.Props.C87_item_violated`, `Syntax.Props.C90_rules_as_documented_partial`, `Files.Props.C91_pointers`, `Files.Props.C92_null`, `Files.Props.C93_pointers`, `GetFunc.Props.C97_defined`, `ArrRef.Props.C101_cycle_violated`, `Builtin.Props.C102_sizeof_const_violated`, `Builtin.Props.C102_sizeof_type_violated`, `Self.Props.C105_null`, `Self.Props.C105_hasptr_violated`, `Self.Props.C105_valid_violated`, `HostArgs.Props.C106_onfree_chunk_partial`, `HostArgs.Props.C106_onfree_chunk_violated`, `HostArgs.Props.C106_onfree_upvalue_violated`, `HostArr.Props.C109_as_program`.

* `Quot.sound`, `propext`: `Sort.C05_sort_terminates_violated`, `Heap.Props.C19_memusage_violated`, `Heap.Props.C56_recycled_not_referenced`, `Arith.Props.C13_constant_folding`, `Arith.Props.C13_constant_folding_unary`, `Arith.Props.C14_mixed_violated`, `Arith.Props.C53_increment_violated`, `Arith.Props.C57_arithmetic_violated`, `Compare.Props.C15_infinity_violated`, `Compare.Props.C15_cyclic_violated`, `Str.Props.C10_slice_min_violated`, `Lexer.Props.C26_block_comment_violated`, `Lexer.Props.C26_unterminated`, `Lexer.Props.C26_line_comment`, `Lexer.Props.C27_forced_semicolon`, `Lexer.Props.C28_string_literal_partial`, `Lexer.Props.C28_char_literal_partial`, `Lexer.Props.C28_raw_literal`, `Lexer.Props.C28_unterminated`, `Lexer.Props.C28_zero_rejected`, `Lexer.Props.C28_two_passes`, `Lexer.Props.C28_escape_violated`, `Lexer.Props.C29_longest_match`, `Lexer.Props.C29_only_operators`, `Lexer.Props.C58_lost_text_violated`, `Layout.Props.C31_params_disjoint`, `Layout.Props.C31_push_order`, `Layout.Props.C32_each_variable_placed`, `Control.Props.C21_type_switch_leak_violated`, `Peephole.Props.C22_message_violated`, `Peephole.Props.C24_constant_index_violated`, `Frame.Props.C33_nested_violated`, `Frame.Props.C34_sort_violated`, `Frame.Props.C35_suspended_violated`, `Frame.Props.C36_orphan_violated`, `Frame.Props.C36_dead_parent_violated`, `Frame.Props.C33_nested_violated`, `Frame.Props.C59_callback_violated`, `Link.Props.C41_streams`, `Lib.Props.C45_injective`, `Lib.Props.C51_trim_unique`, `Api.Props.C54_no_code_partial`, `Api.Props.C54_no_fibers`, `Api.Props.C54_fiber_violated`, `Api.Props.C54_report_violated`, `Api.Props.C54_call_violated`, `Api.Props.C54_nested_run_violated`, `ForIn.Props.C50_maps_error`, `ForIn.Props.C50_index_assigned_violated`, `ForIn.Props.C50_never_ends_violated`, `ForIn.Props.C50_shrinking_violated`, `ForIn.Props.C50_deleted_key_violated`, `Iface.Props.C48_value_overflow`, `Expr.Props.C64_unambiguous`, `Expr.Props.C64_accepted`, `Expr.Props.C64_refused`, `Expr.Props.C64_value`, `Expr.Props.C65_and`, `Expr.Props.C65_or`, `Expr.Props.C65_ternary_true`, `Expr.Props.C65_ternary_false`, `Expr.Props.C66_value_partial`, `Expr.Props.C66_and_violated`, `Expr.Props.C66_or_violated`, `Expr.Props.C66_ternary_violated`, `Call.Props.C71_empty`, `Call.Props.C72_accepted`, `Desig.Props.C75_null_increment_violated`, `TypeDecl.Props.C77_result_parameter_violated`, `TypeDecl.Props.C78_layout_violated`, `TypeDecl.Props.C78_void_items_violated`, `TypeDecl.Props.C79_elsewhere_declared_before`, `TypeDecl.Props.C79_late_result_violated`, `TypeDecl.Props.C79_late_key_violated`, `TypeDecl.Props.C79_early_use_violated`, `TypeDecl.Props.C80_blocks`, `TypeDecl.Props.C80_twice_in_list_violated`, `Conv.Props.C81_constant`, `Conv.Props.C82_constant`, `ResultCopy.Props.C85_leave`, `Trace.Props.C88_same_code`, `Trace.Props.C88_entry_line_violated`, `Trace.Props.C88_external_violated`, `Trace.Props.C89_line_violated`, `Trace.Props.C89_overflow_violated`, `Syntax.Props.C90_documented_modules_violated`, `Syntax.Props.C90_accepted_modules_violated`, `Files.Props.C91_write_partial`, `Files.Props.C91_write_full`, `Files.Props.C91_read_partial`, `Files.Props.C91_denied`, `Files.Props.C91_freadall_partial`, `Files.Props.C91_seek_partial`, `Files.Props.C91_tell`, `Files.Props.C92_closed`, `Files.Props.C93_bytes_partial`, `Files.Props.C93_copy_partial`, `Hooks.Props.C99_fibers_violated`, `Shutdown.Props.C103_shutdown_partial`, `Shutdown.Props.C103_leaks_partial`, `Shutdown.Props.C103_double_free_violated`, `Shutdown.Props.C103_use_after_free_violated`, `Self.Props.C105_untouched`, `HostArgs.Props.C106_param_type`, `HostArgs.Props.C106_result_type`, `HostArgs.Props.C106_onfree`, `HostStr.Props.C108_null`.

* `Classical.choice`, `Quot.sound`, `propext`: `Map.C01_map_refines_finite_map`, `Map.C01_int_keys_violated`, `Map.C02_keys_ascending_complete`, `Map.C03_lookup_terminates`, `Sort.C05_sort_safe_permutation`, `Sort.C05_sort_terminates`, `Sort.C05_sort_sorts`, `Sort.C06_comparator_honoured_partial`, `Sort.C06_comparator_truncated_violated`, `Sort.C07_sort_fast`, `Heap.Props.C16_heap_refines_ideal`, `Heap.Props.C16_live_block_untouched`, `Heap.Props.C17_page_count_is_sum`, `Heap.Props.C17_block_lives_while_referenced`, `Heap.Props.C17_dangling_detected`, `Heap.Props.C18_weak_pointer`, `Heap.Props.C19_memusage_partial`, `Heap.Props.C55_deallocator_exactly_once`, `Arith.Props.C11_assignment_checked`, `Arith.Props.C11_conversion_checked`, `Arith.Props.C11_uint_target_violated`, `Arith.Props.C12_division`, `Arith.Props.C14_comparison_partial`, `Arith.Props.C53_increment_partial`, `Arith.Props.C57_arithmetic_partial`, `Arith.Props.C57_bitwise`, `Arith.Props.C57_negation`, `Compare.Props.C15_lexicographic_partial`, `Compare.Props.C15_int_range`, `Compare.Props.C15_total_order`, `Compare.Props.C15_first_difference`, `Compare.Props.C15_int_overflow_violated`, `DynArr.Props.C08_list_operations_partial`, `DynArr.Props.C08_exact_behaviour`, `DynArr.Props.C08_lengths`, `DynArr.Props.C09_len_le_cap`, `DynArr.Props.C09_in_place`, `DynArr.Props.C09_fresh`, `DynArr.Props.C09_copies`, `Str.Props.C10_strings_partial`, `Str.Props.C10_no_interior_nul`, `Str.Props.C10_capacity_partial`, `Str.Props.C10_allocation`, `Str.Props.C10_overflow_violated`, `Str.Props.C10_capacity_violated`, `Lexer.Props.C25_decimal_literal`, `Lexer.Props.C25_hex_literal`, `Lexer.Props.C25_only_literals`, `Lexer.Props.C26_block_comment_partial`, `Lexer.Props.C27_implicit_semicolons`, `Lexer.Props.C58_round_trip`, `Lexer.Props.C58_progress`, `Layout.Props.C30_struct_layout_partial`, `Layout.Props.C30_array_layout`, `Layout.Props.C30_array_limit`, `Layout.Props.C30_size_multiple`, `Layout.Props.C31_get_param_partial`, `Layout.Props.C32_locals_partial`, `Control.Props.C21_control_statements`, `Control.Props.C21_expressions`, `Control.Props.C21_nested_function`, `Control.Props.C21_stack_partial`, `Control.Props.C23_tables_partial`, `Control.Props.C23_bound_exact`, `Peephole.Props.C22_optimizer`, `Peephole.Props.C22_compile_error`, `Peephole.Props.C24_array_index`, `Peephole.Props.C24_constant_index_partial`, `DynArr.Props.C24_dynarray_index`, `Str.Props.C24_string_index`, `RefCnt.Props.C20_counts_exact_partial`, `RefCnt.Props.C20_no_errors_partial`, `RefCnt.Props.C20_reachable_alive_partial`, `RefCnt.Props.C20_no_leaks_partial`, `Frame.Props.C33_balanced_partial`, `Frame.Props.C33_host_return_partial`, `Frame.Props.C34_no_fault_partial`, `Frame.Props.C34_overflow`, `Frame.Props.C34_top_in_stack_partial`, `Frame.Props.C35_no_dangling_partial`, `Frame.Props.C35_escape_partial`, `Frame.Props.C36_resume_partial`, `Frame.Props.C36_continue_partial`, `Frame.Props.C36_others_partial`, `Frame.Props.C36_finish_partial`, `Frame.Props.C36_dead_forever_partial`, `Frame.Props.C59_no_false_alarm_partial`, `Frame.Props.C35_escape_partial`, `Scope.Props.C37_meaning`, `Scope.Props.C37_restored`, `Scope.Props.C37_duplicate`, `Scope.Props.C37_shadows`, `Release.Props.C38_functions`, `Release.Props.C38_globals`, `Types.Props.C39_decides`, `Types.Props.C39_reflexive`, `Types.Props.C39_symmetric`, `Types.Props.C39_transitive_partial`, `Types.Props.C39_transitive_violated`, `Types.Props.C60_comparable`, `Paths.Props.C40_denotes_absolute`, `Paths.Props.C40_denotes_relative`, `Paths.Props.C40_same_file`, `Paths.Props.C40_other_violated`, `Paths.Props.C40_cut_violated`, `Paths.Props.C40_idempotent`, `Paths.Props.C40_absolute`, `Paths.Props.C40_fits`, `Paths.Props.C40_name`, `Paths.Props.C40_name_fits`, `Link.Props.C41_sandbox`, `Link.Props.C41_replaced`, `Link.Props.C41_failures`, `Link.Props.C41_untrusted`, `Link.Props.C42_duplicates`, `Link.Props.C42_first`, `Link.Props.C42_choose`, `Link.Props.C42_unresolved`, `Link.Props.C42_once`, `Link.Props.C42_long_violated`, `Link.Props.C61_calls_partial`, `Imports.Props.C43_iff`, `Imports.Props.C43_order`, `Imports.Props.C43_errors`, `Imports.Props.C43_terminates`, `Imports.Props.C43_defined`, `Lib.Props.C44_encode`, `Lib.Props.C44_round_trip_partial`, `Lib.Props.C44_invalid`, `Lib.Props.C44_terminates_partial`, `Lib.Props.C45_rand`, `Lib.Props.C51_trim`, `Lib.Props.C51_transform_partial`, `Lib.Props.C51_filter_partial`, `Lib.Props.C51_reduce_partial`, `Enum.Props.C46_enum_partial`, `Enum.Props.C46_find`, `Enum.Props.C46_const_partial`, `Api.Props.C54_dead`, `Api.Props.C54_first_failure`, `Api.Props.C54_exit`, `Printf.Props.C47_success_iff_arguments_match`, `Printf.Props.C47_mismatch_is_error`, `Printf.Props.C47_undocumented_format_never_succeeds`, `Printf.Props.C47_scanner_accepts_exactly_documented_partial`, `Printf.Props.C47_literal_format_checked_at_compile_time`, `Printf.Props.C47_undefined_only_by_hazard_partial`, `Printf.Props.C47_percent_with_width_violated`, `Printf.Props.C47_long_long_of_small_integer_violated`, `Printf.Props.C47_value_with_width_and_length_violated`, `Printf.Props.C52_repr_buffer_exact`, `Printf.Props.C52_sprintf_exact`, `Printf.Props.C52_sprintf_never_out_of_bounds`, `MapHeap.Props.C04_maps_are_objects`, `MapHeap.Props.C04_copy_equal_and_independent`, `MapHeap.Props.C04_copy_independent_any_comparison`, `ForIn.Props.C50_sequences_partial`, `ForIn.Props.C50_maps`, `ForIn.Props.C50_visits_each_item_once`, `ForIn.Props.C50_compiled_partial`, `ForIn.Props.C50_maps_compiled`, `ForIn.Props.C50_long_string_violated`, `ListAsg.Props.C49_list_assignment`, `ListAsg.Props.C49_each_variable`, `ListAsg.Props.C49_errors`, `ListAsg.Props.C49_declaration`, `Iface.Props.C48_value_round_trip`, `Iface.Props.C48_pointer_round_trip`, `Iface.Props.C48_type_switch`, `Iface.Props.C48_pointer_as_value_partial`, `Iface.Props.C48_value_as_pointer_partial`, `Iface.Props.C48_value_as_pointer_violated`, `Iface.Props.C48_pointer_as_value_violated`, `Iface.Props.C48_pointer_case_violated`, `Iface.Props.C62_value`, `Iface.Props.C62_pointer`, `Scanf.Props.C63_values_partial`, `Scanf.Props.C63_writes_partial`, `Scanf.Props.C63_literal`, `Scanf.Props.C63_types`, `Scanf.Props.C63_literal_types`, `Scanf.Props.C63_count_violated`, `Scanf.Props.C63_tail_violated`, `Scanf.Props.C63_long_violated`, `Scanf.Props.C63_width_violated`, `Scanf.Props.C63_word_violated`, `Scanf.Props.C63_literal_violated`, `Scanf.Props.C63_range_violated`, `Scanf.Props.C63_flags_violated`, `Scanf.Props.C63_stop_violated`, `Control.Props.C67_result`, `Call.Props.C68_call`, `Call.Props.C68_error`, `Call.Props.C69_refused`, `Call.Props.C69_accepted_partial`, `Call.Props.C70_value`, `Call.Props.C70_accepted`, `Call.Props.C70_refused`, `Call.Props.C71_items_partial`, `Call.Props.C71_scalar`, `Call.Props.C71_late_copy_violated`, `Call.Props.C72_creation`, `Call.Props.C72_plain`, `Call.Props.C72_call`, `Desig.Props.C73_denotes_partial`, `Desig.Props.C73_read`, `Desig.Props.C73_address`, `Desig.Props.C73_refused_partial`, `Desig.Props.C74_assignment`, `Desig.Props.C74_errors`, `Desig.Props.C74_fields_and_items`, `Desig.Props.C75_short_assignment`, `Desig.Props.C75_equivalent`, `Desig.Props.C75_increment_partial`, `Desig.Props.C76_accepted`, `Desig.Props.C76_increment_partial`, `TypeDecl.Props.C77_declared_type_is_as_written`, `TypeDecl.Props.C77_used_type_is_as_written`, `TypeDecl.Props.C77_types_stay`, `TypeDecl.Props.C77_result_parameter_partial`, `TypeDecl.Props.C78_complete_and_sized`, `TypeDecl.Props.C78_finite`, `TypeDecl.Props.C78_references_marked`, `TypeDecl.Props.C78_layout_partial`, `TypeDecl.Props.C78_tidy`, `TypeDecl.Props.C79_declared_before_partial`, `TypeDecl.Props.C79_in_order_accepted_partial`, `TypeDecl.Props.C79_elsewhere_accepted`, `TypeDecl.Props.C80_redeclaration_refused`, `TypeDecl.Props.C80_declaration_stays`, `TypeDecl.Props.C80_twice_in_list_partial`, `Conv.Props.C81_implicit_partial`, `Conv.Props.C81_enum_violated`, `Conv.Props.C82_cast_partial`, `Conv.Props.C82_endless_violated`, `Conv.Props.C82_equivalent_violated`, `Conv.Props.C82_constant_violated`, `Conv.Props.C82_bytes_violated`, `Conv.Props.C83_items`, `Conv.Props.C83_items_error`, `Conv.Props.C83_same`, `Conv.Props.C83_lists`, `Conv.Props.C83_lists_error`, `Conv.Props.C84_accepted`, `Conv.Props.C84_order`, `Conv.Props.C84_type`, `Conv.Props.C84_consequences`, `Conv.Props.C84_sides`, `Conv.Props.C84_short`, `ResultCopy.Props.C85_handed_over`, `ResultCopy.Props.C85_kept`, `ResultCopy.Props.C85_no_failure`, `ResultCopy.Props.C85_used`, `ResultCopy.Props.C85_copy_effect`, `Static.Props.C86_initial`, `Static.Props.C86_apart`, `Static.Props.C86_apart_defaults`, `Static.Props.C87_default_partial`, `Trace.Props.C88_location_partial`, `Trace.Props.C88_lines`, `Trace.Props.C88_functions`, `Trace.Props.C88_ranges`, `Trace.Props.C88_calls`, `Trace.Props.C89_callers_partial`, `Trace.Props.C89_locations_partial`, `Syntax.Props.C90_accepted_exactly_partial`, `Files.Props.C91_open`, `Files.Props.C91_new_file`, `Files.Props.C91_round_trip_partial`, `Files.Props.C91_pieces`, `Files.Props.C91_seek_violated`, `Files.Props.C91_feof_violated`, `Files.Props.C92_close`, `Files.Props.C92_no_ub_partial`, `Files.Props.C92_no_leak`, `Files.Props.C92_fresh`, `Files.Props.C92_std_violated`, `Files.Props.C92_null_name_violated`, `Files.Props.C92_direction_violated`, `Files.Props.C93_empty_violated`, `Convert.Props.C94_itoa`, `Convert.Props.C94_ftoa`, `Convert.Props.C94_atoi_partial`, `Convert.Props.C94_atoi_null`, `Convert.Props.C94_round_trip`, `Convert.Props.C94_range_violated`, `Convert.Props.C94_atof`, `Convert.Props.C94_atof_null`, `Warn.Props.C95_unused`, `Warn.Props.C95_shadowed`, `Asm.Props.C96_listing_partial`, `Asm.Props.C96_lost`, `Asm.Props.C96_last_violated`, `GetFunc.Props.C97_found_partial`, `GetFunc.Props.C97_main`, `GetFunc.Props.C97_spelling`, `GetFunc.Props.C97_path_violated`, `GetFunc.Props.C97_indirect_violated`, `Spell.Props.C98_cut_partial`, `Spell.Props.C98_short`, `Spell.Props.C98_overflow`, `Spell.Props.C98_bounded`, `Spell.Props.C98_overflow_violated`, `Hooks.Props.C99_nested_partial`, `Hooks.Props.C99_fresh`, `Hooks.Props.C99_done`, `Hooks.Props.C99_reports`, `Cmd.Props.C100_usage`, `Cmd.Props.C100_only`, `Cmd.Props.C100_refused`, `Cmd.Props.C100_script`, `Cmd.Props.C100_runs`, `Cmd.Props.C100_exit_partial`, `Cmd.Props.C100_messages`, `Cmd.Props.C100_steps`, `Cmd.Props.C100_exit_violated`, `Cmd.Props.C100_stack_violated`, `Cmd.Props.C100_unknown_violated`, `ArrRef.Props.C101_exact`, `ArrRef.Props.C101_safe`, `ArrRef.Props.C101_freed`, `ArrRef.Props.C101_no_leak`, `ArrRef.Props.C101_result_partial`, `ArrRef.Props.C101_insert_violated`, `Builtin.Props.C102_accepts_partial`, `Builtin.Props.C102_balanced`, `Builtin.Props.C102_const_partial`, `Geom.Props.C104_vectors`, `Geom.Props.C104_normalized`, `Geom.Props.C104_matrices`, `Geom.Props.C104_rate`, `Geom.Props.C104_attitude`, `Geom.Props.C104_angles`, `Geom.Props.C104_angles_of_rotation`, `Geom.Props.C104_orthogonalized_partial`, `Geom.Props.C104_orthogonalized_violated`, `Self.Props.C105_value`, `Self.Props.C105_pointer`, `Self.Props.C105_types`, `HostArgs.Props.C106_slots_partial`, `HostArgs.Props.C106_block_partial`, `TypeQuery.Props.C107_queries`, `TypeQuery.Props.C107_struct`, `HostStr.Props.C108_make`, `HostStr.Props.C108_safe`, `HostStr.Props.C108_as_program`, `HostArr.Props.C109_contents`, `HostArr.Props.C109_refused`.
