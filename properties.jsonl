{"id": "C01", "title": "A map behaves as a finite map", "statement": "For every sequence of m[k] = v, m[k] reads (which create a zero item when the key is missing), delete(m, k), validkey(m, k) and len(m) on a map, every result is the one an ideal finite map would give, whatever random balancing decisions the implementation takes.", "quantifier": "every operation sequence, every key type with a lawful comparison, every outcome of the random number generator", "why_tests_cant": "The balancing depends on rand() and on the whole history; the number of tree shapes is unbounded.", "anchors": ["src/umka_vm.c:doGetMapNode,doRebalanceMapNodes,doGetMapPtr,doBuiltinDeleteMap,doBuiltinValidKey,doBuiltinLen"]}
{"id": "C02", "title": "Maps enumerate their keys in ascending order, exactly once", "statement": "keys(m) (and the for-in loop built on it) lists every key present in the map exactly once, in strictly ascending order, and len(keys(m)) == len(m); the 'wrong number of map keys' internal error is unreachable.", "quantifier": "every reachable map", "why_tests_cant": "Must hold for every history and tree shape.", "anchors": ["src/umka_vm.c:doGetMapKeysRecursively,doGetMapKeys,doBuiltinKeys"]}
{"id": "C03", "title": "Map lookup always terminates", "statement": "Every map access terminates, for every tree shape and every assignment of node priorities, although lookups restructure the tree while they descend.", "quantifier": "every tree and every key", "why_tests_cant": "Termination cannot be tested; the loop may rotate many times at one place before it descends.", "anchors": ["src/umka_vm.c:doGetMapNode"]}
{"id": "C04", "title": "copy() of a map is equal and independent", "statement": "copy(m) yields a map with the same keys and items as m; later operations on either one do not change the other.", "quantifier": "every reachable map, every later operation sequence on both copies", "why_tests_cant": "Quantifies over all trees and all later histories.", "anchors": ["src/umka_vm.c:doCopyMapNode,doBuiltinCopyMap"]}
{"id": "C05", "title": "sort() permutes and sorts, terminates, and stays inside the array", "statement": "sort(a, cmp) ends for every comparison function that answers 0 or less for equal items; the result is a permutation of the input even if the comparison is inconsistent; it is sorted if the comparison is a total preorder; no element outside the array is touched.", "quantifier": "every array length and contents, every comparison function", "why_tests_cant": "Unbounded lengths and arbitrary user comparison functions.", "anchors": ["src/umka_vm.c:qsortSwap,qsortPartition,qsortEx,doBuiltinSort"]}
{"id": "C06", "title": "sort() honours the full value returned by the comparison function", "statement": "The sign of the 64-bit integer returned by the user's comparison function decides the order of the two items.", "quantifier": "every int returned by the comparison function", "why_tests_cant": "A truncation shows only on values whose low 32 bits disagree in sign with the whole.", "anchors": ["src/umka_vm.c:qsortCompare"]}
{"id": "C07", "title": "sort(a, ascending) orders by the built-in comparison in either direction", "statement": "sort(a, true) yields an ascending permutation and sort(a, false) a descending permutation of a under the built-in comparison of the item type.", "quantifier": "every array of a type whose built-in comparison is a total preorder", "why_tests_cant": "Unbounded lengths and contents.", "anchors": ["src/umka_vm.c:qsortFastCompare,doBuiltinSortFast"]}
{"id": "C08", "title": "Dynamic array operations implement list operations", "statement": "make, append, insert, delete, slice, copy, len and indexing on dynamic arrays return exactly the list that the documentation describes, and raise a run-time error exactly when the index or length is out of range.", "quantifier": "every array, index, length and operation sequence", "why_tests_cant": "Boundary conditions over unbounded sizes and histories.", "anchors": ["src/umka_vm.c:doBuiltinAppend,doBuiltinInsert,doBuiltinDeleteDynArray,doBuiltinSlice,doBuiltinCopyDynArray,doAllocDynArray,doGetDynArrayPtr"]}
{"id": "C09", "title": "append/insert alter in place exactly when the capacity suffices", "statement": "len(a) <= cap(a) always; append and insert reuse the storage (so that other references to the same array see the change) exactly when the new length fits the capacity and otherwise leave the old storage untouched.", "quantifier": "every heap of arrays and every operation sequence, with aliasing", "why_tests_cant": "Aliasing effects depend on the whole history.", "anchors": ["src/umka_vm.c:doBuiltinAppend,doBuiltinInsert,doAllocDynArray"]}
{"id": "C10", "title": "Strings: concatenation, slicing and conversion are exact", "statement": "s + t, s += t, slice(s, i, j), len(s), copy(s), conversions between str and []char yield exactly the documented byte sequences; the result never contains an interior NUL and always keeps len(s) + 1 <= cap(s).", "quantifier": "every string, index and capacity", "why_tests_cant": "Unbounded lengths; boundary indices; in-place append depends on history.", "anchors": ["src/umka_vm.c:doAllocStr,doBinary,doBuiltinSlice,doBuiltinMakeStr,doBuiltinMakeFromStr,doBuiltinCopyStr"]}
{"id": "C11", "title": "Assigning to a narrow integer is checked", "statement": "Storing an int into a variable of type int8..uint32, char, bool, or an enum over them either stores exactly that value or raises an overflow error; a later load yields exactly the stored value.", "quantifier": "every 64-bit value and every ordinal kind", "why_tests_cant": "2^64 values per type.", "anchors": ["src/umka_vm.c:doAssignImpl,doDerefImpl,doAssign,doAssertRange", "src/umka_types.h:typeConvOverflow,typeOverflow"]}
{"id": "C12", "title": "Integer division and remainder never crash the host", "statement": "x / y and x % y on int and uint either yield the truncated quotient and the remainder with x == (x / y) * y + x % y, or a run-time error; the error occurs exactly for y == 0 and for the single overflowing pair.", "quantifier": "every pair of 64-bit operands", "why_tests_cant": "2^128 operand pairs.", "anchors": ["src/umka_vm.c:doBinary", "src/umka_const.c:constBinary"]}
{"id": "C13", "title": "Constant folding agrees with run-time evaluation", "statement": "An operator applied to constants at compile time gives the same value or the same error as the same operator executed at run time.", "quantifier": "every ordinal operator, every pair of operands, signed and unsigned", "why_tests_cant": "Two separate implementations must agree on all operand values.", "anchors": ["src/umka_const.c:constUnary,constBinary,constCompare", "src/umka_vm.c:doUnary,doBinary,doCompare", "src/umka_gen.c:optimizeUnary,optimizeBinary"]}
{"id": "C14", "title": "Comparison of ints is the mathematical order", "statement": "==, !=, <, <=, >, >= on ordinal values agree with the mathematical order.", "quantifier": "every pair of 64-bit values", "why_tests_cant": "A wrong result appears only for operands whose difference overflows.", "anchors": ["src/umka_vm.c:doCompare,doBinary"]}
{"id": "C15", "title": "Structured comparison is a lexicographic order", "statement": "Comparison of arrays, dynamic arrays, structures and strings is the lexicographic extension of the comparison of their parts, and is a total order whenever the leaf comparisons are.", "quantifier": "every comparable type and every pair of values", "why_tests_cant": "Unbounded nesting of types.", "anchors": ["src/umka_vm.c:doCompare", "src/umka_types.c:typeComparable"]}
{"id": "C16", "title": "Live heap blocks never overlap and start zeroed", "statement": "Every block returned by new/make is disjoint from every other live block, lies in heap memory, and is zero-filled.", "quantifier": "every history of allocations and releases", "why_tests_cant": "Depends on page recycling over unbounded histories.", "anchors": ["src/umka_vm.c:chunkAlloc,pageAdd,pageFindForAlloc,pageFindRecycled,pageRemove"]}
{"id": "C17", "title": "A heap block stays alive while it is referenced", "statement": "A page of heap memory is only recycled when no block in it has a positive reference count; the page count always equals the sum of the counts of its blocks.", "quantifier": "every history of allocations, increments and decrements", "why_tests_cant": "Reference counting errors appear only after specific long histories.", "anchors": ["src/umka_vm.c:chunkRefCnt,chunkAlloc,pageRemove"]}
{"id": "C18", "title": "A weak pointer yields its object or null", "statement": "Converting a pointer to weak and back yields the original pointer while the object is alive and null after it has died - never another object - for all histories with fewer than 2^31 page allocations.", "quantifier": "every history between weakening and strengthening", "why_tests_cant": "ABA problems need rare histories of recycling.", "anchors": ["src/umka_vm.c:doWeakenPtr,doStrengthenPtr,pageFindById"]}
{"id": "C19", "title": "memusage() reports the allocated heap memory", "statement": "memusage() equals the total size of the heap pages currently allocated.", "quantifier": "every history of allocations and releases", "why_tests_cant": "Drift accumulates over histories.", "anchors": ["src/umka_vm.c:pageAdd,pageFindRecycled,pageFree,doBuiltinMemUsage"]}
{"id": "C20", "title": "Reference counts equal the number of references", "statement": "After any sequence of allocations, pointer assignments, and variable releases, the reference count of each live object equals the number of pointers to it from live variables and live objects; objects that are not reachable through a cycle are released as soon as the last reference disappears, and never before.", "quantifier": "every object graph and every operation sequence", "why_tests_cant": "Unbounded object graphs.", "anchors": ["src/umka_vm.c:doRefCntImpl,doRefCntAssign"]}
{"id": "C21", "title": "Control statements execute as the language defines", "statement": "if/else, for with post statement, break, continue, return, switch, && and || compiled to jumps by the code generator have the effect the language reference gives them, at any nesting depth.", "quantifier": "every program built from these statements, every initial state", "why_tests_cant": "Unbounded program shapes; errors hide in nesting combinations.", "anchors": ["src/umka_gen.c:genIfCondEpilog,genElseProlog,genIfElseEpilog,genForCondProlog,genForCondEpilog,genForPostStmtEpilog,genForEpilog,genSwitchCondEpilog,genCaseConstantCheck,genCaseBlockProlog,genCaseBlockEpilog,genSwitchEpilog,genShortCircuitProlog,genShortCircuitEpilog,genGotosAddStub,genGotosEpilog", "src/umka_stmt.c:parseIfStmt,parseForStmt,parseForHeader,parseExprSwitchStmt"]}
{"id": "C22", "title": "The peephole optimizer preserves meaning", "statement": "The code produced with the peephole optimizer has the same effect on the stack, memory and errors as the code without it, and never combines instructions across a jump target.", "quantifier": "every sequence of generated instructions and every machine state", "why_tests_cant": "Combinatorially many instruction sequences.", "anchors": ["src/umka_gen.c:optimizePushLocalPtr,optimizePushReg,optimizePushZero,optimizePop,optimizePopReg,optimizeSwapAssign,optimizeDeref,optimizeGetArrayPtr,optimizeGetFieldPtr,optimizeUnary,optimizeBinary"]}
{"id": "C23", "title": "Compilation never corrupts the compiler's own bookkeeping", "statement": "No source program makes the code generator write outside its fixed tables of pending jumps.", "quantifier": "every source program", "why_tests_cant": "Needs programs larger than any test, e.g. a switch with more than a hundred cases.", "anchors": ["src/umka_gen.c:genSavePos,genRestorePos,genCaseBlockEpilog,genGotosAddStub"]}
{"id": "C24", "title": "Array indexing is bounds checked", "statement": "a[i] on arrays, dynamic arrays and strings denotes element i if 0 <= i < len(a), and raises an error otherwise.", "quantifier": "every length and every 64-bit index", "why_tests_cant": "Truncations show only for indices beyond 32 bits.", "anchors": ["src/umka_vm.c:doGetArrayPtr,doGetDynArrayPtr", "src/umka_gen.c:optimizeGetArrayPtr"]}
{"id": "C25", "title": "Integer literals denote their exact value or are rejected", "statement": "A decimal or hexadecimal literal, with underscores, denotes exactly its mathematical value if that is below 2^64 and is rejected as too large otherwise.", "quantifier": "every digit sequence", "why_tests_cant": "Unbounded literals; the overflow test is subtle.", "anchors": ["src/umka_lexer.c:lexDigitSeq,lexNumber,lexCharDigit"]}
{"id": "C26", "title": "Block comments end at the first */", "statement": "A block comment extends from /* to the first following */, and is skipped completely.", "quantifier": "every comment text", "why_tests_cant": "A wrong automaton fails only for special character runs.", "anchors": ["src/umka_lexer.c:lexMultiLineComment,lexSpacesAndComments"]}
{"id": "C27", "title": "Implicit semicolons are inserted exactly where documented", "statement": "A newline acts as a semicolon if and only if the last token before it is one of the documented statement-ending tokens.", "quantifier": "every token sequence", "why_tests_cant": "All token kinds and contexts.", "anchors": ["src/umka_lexer.c:lexNextWithEOLN,lexNext"]}
{"id": "C28", "title": "String and character literals denote the documented bytes", "statement": "The bytes of a literal are the source characters with each escape sequence replaced by its documented value; the two passes (measure, then fill) agree, so the buffer is filled exactly.", "quantifier": "every literal text", "why_tests_cant": "Buffer overruns need rare combinations of escapes.", "anchors": ["src/umka_lexer.c:lexEscChar,lexSingleLineStrLiteralAndGetSize,lexMultiLineStrLiteralAndGetSize,lexStrLiteral,lexCharLiteral"]}
{"id": "C29", "title": "Operators are recognised by longest match", "statement": "The lexer recognises the longest operator that is a prefix of the input.", "quantifier": "every input", "why_tests_cant": "All combinations of operator characters.", "anchors": ["src/umka_lexer.c:lexOperator"]}
{"id": "C30", "title": "Structure layout is sound", "statement": "Fields of a structure do not overlap, are aligned for their type, lie inside the structure, and the structure size is a multiple of its alignment.", "quantifier": "every list of field types, with nesting", "why_tests_cant": "Unbounded type expressions.", "anchors": ["src/umka_types.c:typeAddField,typeSizeRecompute,typeAlignmentRecompute"]}
{"id": "C31", "title": "Function parameters occupy disjoint stack slots and are addressable by position", "statement": "umkaGetParam(params, i) returns the first slot of parameter i and NULL if there is no such parameter; slots of different parameters are disjoint and lie inside the parameter area.", "quantifier": "every signature and every index, including negative ones", "why_tests_cant": "Unbounded signatures.", "anchors": ["src/umka_types.c:typeParamOffset,typeParamSizeUpTo,typeMakeStackFrameLayout", "src/umka_api.c:umkaGetParam,umkaGetUpvalue,umkaGetResult"]}
{"id": "C32", "title": "Local variables never overlap", "statement": "All local and temporary variables that live in one function occupy disjoint, suitably aligned parts of its frame.", "quantifier": "every sequence of declarations with any sizes", "why_tests_cant": "Unbounded declaration sequences.", "anchors": ["src/umka_ident.c:identAllocStack,identAllocVar,identAllocTempVar"]}
{"id": "C33", "title": "Calls and returns keep the stack balanced", "statement": "After a call to a function returns, the frame base and stack pointer are those before the parameters were pushed, and execution continues after the call.", "quantifier": "every call depth and every program", "why_tests_cant": "Unbounded call depth.", "anchors": ["src/umka_vm.c:doCall,doReturn,doEnterFrame,doLeaveFrame"]}
{"id": "C34", "title": "The stack cannot overflow silently", "statement": "Every push beyond the stack limit reserved by the checks raises 'Stack overflow' instead of writing outside the stack.", "quantifier": "every call and push sequence", "why_tests_cant": "Depth-dependent.", "anchors": ["src/umka_vm.c:doEnterFrame,doPushZero,doGetMapKeysRecursively"]}
{"id": "C35", "title": "A pointer to a local variable cannot outlive its function", "statement": "If a counted pointer to a local variable of a frame still exists when the function returns, the program stops with an error instead of leaving a dangling pointer.", "quantifier": "every execution", "why_tests_cant": "Depends on data flow of the whole execution.", "anchors": ["src/umka_vm.c:stackUpdateFrameRefCnt,doLeaveFrame"]}
{"id": "C36", "title": "Fibers resume where they stopped", "statement": "resume(f) transfers control to f if it is alive, resume() to the parent, and otherwise has no effect; each fiber continues after its last resume; when a fiber's function returns, control goes to its parent and the fiber is dead for ever.", "quantifier": "every schedule of resumes", "why_tests_cant": "Unbounded schedules.", "anchors": ["src/umka_vm.c:doBuiltinResume,doReturn,doAllocFiber,vmLoop"]}
{"id": "C37", "title": "Identifiers resolve to the innermost declaration", "statement": "A name denotes the innermost visible declaration; leaving a block restores exactly the earlier meaning of every name; a second declaration in the same block is rejected.", "quantifier": "every nesting of blocks and declarations", "why_tests_cant": "Unbounded nesting.", "anchors": ["src/umka_ident.c:identFindEx,identAdd,identFree", "src/umka_common.c:blocksEnter,blocksLeave"]}
{"id": "C38", "title": "Every local variable is released exactly once on every exit path", "statement": "Whatever combination of normal exit, break, continue and return leaves a block, each counted variable declared so far in the blocks that are left is released exactly once.", "quantifier": "every nesting of blocks and every exit path", "why_tests_cant": "Path explosion.", "anchors": ["src/umka_stmt.c:doGarbageCollectionAt,doGarbageCollection,doGarbageCollectionDownToBlock,parseBreakStmt,parseContinueStmt,parseReturnStmt"]}
{"id": "C39", "title": "Type equivalence is an equivalence relation and decidable on recursive types", "statement": "Equivalence of types is reflexive, symmetric and transitive, and the check terminates for self-referential types.", "quantifier": "every pair of types", "why_tests_cant": "Infinite unfolding of recursive types.", "anchors": ["src/umka_types.c:typeEquivalentRecursive,typeEquivalent"]}
{"id": "C40", "title": "Module paths are normalised consistently", "statement": "Regularizing a path removes . and .. components without changing which file it denotes, is idempotent, and reports an error when .. climbs above the root.", "quantifier": "every path string", "why_tests_cant": "All strings.", "anchors": ["src/umka_common.c:moduleRegularizePath,modulePathIsAbsolute,moduleNameFromPath"]}
{"id": "C41", "title": "The sandbox denies file system access", "statement": "With fileSystemEnabled == false every library function that touches files, the environment or the command processor is replaced by a stub returning a fixed failure value, and no program can reach the original.", "quantifier": "every library function and every program", "why_tests_cant": "Must hold for every entry of the table and every resolution path.", "anchors": ["src/umka_compiler.c:compilerDeclareExternalFuncs", "src/umka_runtime.c:rtlfopenSandbox", "src/umka_stmt.c:doResolveExtern"]}
{"id": "C42", "title": "External functions resolve deterministically", "statement": "umkaAddFunc rejects duplicate names; a prototype is bound by the documented priority - definition, host function (only for modules registered as strings), library - and an unresolved one is an error.", "quantifier": "every registration history and every prototype", "why_tests_cant": "All histories.", "anchors": ["src/umka_common.c:externalFind,externalAdd", "src/umka_stmt.c:doResolveExtern", "src/umka_compiler.c:compilerAddClosure"]}
{"id": "C43", "title": "Each module is compiled once and import cycles are rejected", "statement": "For every import graph compilation either visits each reachable module exactly once, dependencies first, or reports a cyclic import; it always terminates.", "quantifier": "every import graph", "why_tests_cant": "Unbounded graphs.", "anchors": ["src/umka_decl.c:parseImportItem,parseModule", "src/umka_common.c:moduleFind,moduleAdd"]}
{"id": "C44", "title": "UTF-8 library round trip", "statement": "decode(encode(runes)) == runes for valid runes, and decode terminates on every string.", "quantifier": "every rune list and every byte string", "why_tests_cant": "All byte strings.", "anchors": ["src/umka_runtime_src.h:utf8.um encode,decodeRune,decode,runeCount"]}
{"id": "C45", "title": "The pseudo-random generator never gets stuck", "statement": "rand() is always in 0..randMax and the generator state never becomes zero, for every seed and any number of calls.", "quantifier": "every seed and every number of calls", "why_tests_cant": "2^64 states.", "anchors": ["src/umka_runtime_src.h:std.um rand,srand"]}
{"id": "C46", "title": "Enumeration and constant auto-numbering", "statement": "A constant without explicit value is one more than its predecessor (0 for the first enumeration constant), values outside the base type are rejected, and an enumeration without a zero constant gets one named zero.", "quantifier": "every declaration list", "why_tests_cant": "Unbounded lists, boundary values.", "anchors": ["src/umka_decl.c:parseEnumItem,parseEnumType,parseConstDeclItem"]}
{"id": "C47", "title": "printf checks its format against its arguments", "statement": "For every format string and argument list, a mismatch in number or kind of the arguments is a run-time error and never an out-of-bounds read; the format scanner accepts exactly the documented specifiers.", "quantifier": "every format string and argument list", "why_tests_cant": "All strings.", "anchors": ["src/umka_types.c:typeFormatStringValid", "src/umka_vm.c:doBuiltinPrintf,doPrintSlot"]}
{"id": "C48", "title": "Interface conversions preserve value and type", "statement": "A value converted to an interface and back to its own type is unchanged; converting back to another type is an error (value) or null (pointer).", "quantifier": "every type and value", "why_tests_cant": "All pairs of types.", "anchors": ["src/umka_vm.c:doAssertType", "src/umka_expr.c:doInterfaceToPtrConv,doInterfaceToValueConv,doValueToInterfaceConv"]}
{"id": "C49", "title": "List assignment evaluates everything before storing", "statement": "x1, ..., xn = e1, ..., en stores the values that e1..en had before any of the stores.", "quantifier": "every list length and every aliasing of the designators", "why_tests_cant": "Aliasing combinations.", "anchors": ["src/umka_stmt.c:parseListAssignmentStmt"]}
{"id": "C50", "title": "for-in visits each item once in order", "statement": "for i, x in a runs its body for i = 0, 1, ..., len(a) - 1 (keys in ascending order for maps), with the collection and its length evaluated once.", "quantifier": "every collection and every loop body", "why_tests_cant": "Unbounded lengths, bodies that modify the collection.", "anchors": ["src/umka_stmt.c:parseForInHeader"]}
{"id": "C51", "title": "Standard list functions", "statement": "fnc transform, filter and reduce compute map, filter and left fold; trim functions remove exactly the leading/trailing blank characters.", "quantifier": "every array, string and function", "why_tests_cant": "All inputs.", "anchors": ["src/umka_runtime_src.h:fnc.um transform,filter,reduce; std.um ltrim,rtrim,trim"]}
{"id": "C52", "title": "sprintf/repr output is measured exactly", "statement": "The length computed in the measuring pass equals the number of bytes written in the second pass, so that the result buffer is never overrun and the result is never truncated.", "quantifier": "every value of every type", "why_tests_cant": "Unbounded nested values.", "anchors": ["src/umka_vm.c:doFillReprBuf,doPrintIndented,doPrintSlot"]}
{"id": "C53", "title": "Increment and decrement agree with adding one", "statement": "x++ has the same effect as x += 1 for every integer type.", "quantifier": "every type and every value", "why_tests_cant": "Only boundary values differ.", "anchors": ["src/umka_stmt.c:parseIncDecStmt,parseShortAssignmentStmt", "src/umka_vm.c:doUnary"]}
{"id": "C54", "title": "A dead interpreter stays dead", "statement": "After a run-time error or exit, umkaAlive() is false and umkaRun/umkaCall never execute code again; the reported error is the first one.", "quantifier": "every history of API calls", "why_tests_cant": "All call histories.", "anchors": ["src/umka_api.c:umkaRun,umkaCall,umkaAlive,runtimeError", "src/umka_vm.c:vmKill,vmAlive,vmCall"]}
{"id": "C55", "title": "Deallocators run exactly once", "statement": "The deallocator given to umkaAllocData is called exactly once for every block allocated with one: when its last reference goes away or when the interpreter is freed.", "quantifier": "every heap history", "why_tests_cant": "Depends on the history of references.", "anchors": ["src/umka_vm.c:chunkAlloc,chunkRefCnt,pageFree"]}
{"id": "C56", "title": "Memory still pointed at from the stack is not reused", "statement": "When the last reference to the blocks of a page goes away, the page is offered for reuse only if no scanned stack slot points into it.", "quantifier": "every heap state and stack contents", "why_tests_cant": "Depends on the history of allocations and on stack contents at each release.", "anchors": ["src/umka_vm.c:pageMayBeReferencedByTemporaries,pageMoveBlacklistedToRecycled,pageMoveToBlacklisted,pageRemove"]}
{"id": "C57", "title": "Integer arithmetic is exact or reported", "statement": "+, -, *, <<, >>, negation and the bitwise operators on integers yield the exact mathematical result (modulo 2^64 for uint), or a run-time error; they never expose the host program to undefined behaviour.", "quantifier": "every operator, every integer type, every pair of 64-bit operands", "why_tests_cant": "2^128 operand pairs per operator; the failing ones are at the edges of the range", "anchors": ["src/umka_vm.c:doBinary", "src/umka_vm.c:doUnary"]}
{"id": "C58", "title": "Source text is split into tokens without loss", "statement": "Reading a file always ends, and a text made of tokens separated by blanks is read as exactly those tokens; no character of the text is silently ignored except blanks and comments.", "quantifier": "every source text of any length", "why_tests_cant": "Unbounded texts; the failing ones are malformed numbers nobody thinks of testing.", "anchors": ["src/umka_lexer.c:lexNextWithEOLN,lexNumber,lexKeywordOrIdent,lexOperator"]}
{"id": "C59", "title": "The escape check does not stop valid programs", "statement": "Copying or dropping a pointer to a variable of a function that has not returned never stops the program, and leaving a function stops it only if a pointer to one of its variables still exists.", "quantifier": "every execution, every call depth, calls from external functions included", "why_tests_cant": "The check walks the frames at run time; whether it finds the right one depends on the whole call history.", "anchors": ["src/umka_vm.c:stackUpdateFrameRefCnt,stackUnwind,doLeaveFrame,vmCall"]}
{"id": "C60", "title": "Comparison operators are accepted exactly for comparable types", "statement": "A comparison of two values, or the use of a type as the key of a map, compiles exactly if all parts of the values that have to be compared are numbers, characters, booleans, pointers, strings, or arrays and structures of such; the check terminates for recursive types.", "quantifier": "every type that can be declared, recursive ones included", "why_tests_cant": "Types can be nested and mutually recursive without bound.", "anchors": ["src/umka_types.c:typeComparable,typeValidOperator"]}
{"id": "C61", "title": "A call to a function declared ahead by a prototype executes the body given later", "statement": "Every call to a function, before or after its body and across modules, transfers control to the one entry of that function; a prototype without a body calls the C function bound to it.", "quantifier": "every program: all lists of modules, prototypes, functions and calls", "why_tests_cant": "Placeholders are patched after the calls are compiled; all orders of declarations must be covered.", "anchors": ["src/umka_decl.c:parseFnDecl", "src/umka_stmt.c:parseFnBlock,parseFnPrototype,doResolveExtern", "src/umka_ident.c:identTryResolveFnPrototype", "src/umka_gen.c:genEntryPoint"]}
{"id": "C62", "title": "A method called through an interface is the one declared for the type of the value in it", "statement": "A value or pointer is converted to an interface, the result to another interface, some of them being stored in variables on the way. A call of a method of the last interface calls a method with this name that is declared for the type of the original value, that is visible where the conversion was compiled and whose signature agrees with the one in the interface. The receiver is the original pointer, or a pointer to a copy of the value with the same contents. Calling a method of an interface that holds null is a run-time error.", "quantifier": "all types, sets of methods, chains of conversions and assignments, values and memory contents", "why_tests_cant": "the method is found by its name in the source interface at every conversion, and entry points are moved between fields of different interfaces; tests call a few methods of small interfaces", "anchors": ["src/umka_expr.c:doPtrToInterfaceConv", "src/umka_expr.c:doInterfaceToInterfaceConv", "src/umka_expr.c:doValueToInterfaceConv", "src/umka_ident.c:identFind", "src/umka_vm.c:doCallIndirect"]}
{"id": "C63", "title": "scanf reads back what the format describes", "statement": "If the source of scanf, fscanf or sscanf contains a text of the form that the format describes, and the variables have the types that the specifiers ask for, then the call returns the number of values, every variable has the value that the text contains for it, nothing else in memory has changed, and a file is left right after what has been read. Whatever the source contains, nothing but the variables is changed, and a literal format that does not match the variables is rejected by the compiler.", "quantifier": "all formats, texts, variables and memory contents", "why_tests_cant": "formats and texts are unbounded, and the call is split into one C library call per value whose positions must add up; tests read a few numbers", "anchors": ["src/umka_vm.c:doBuiltinScanf", "src/umka_vm.c:fsscanfString", "src/umka_expr.c:parseBuiltinIOCall", "src/umka_types.h:typeCompatibleScanf"]}
{"id": "C64", "title": "Expressions are grouped and evaluated as the documented grammar says", "statement": "Every text of the documented grammar of expressions has exactly one syntax tree; it is accepted if and only if its operands have the documented types, and then the compiled code evaluates that tree: operands from left to right, each once, with the documented conversions between integers and reals, leaving exactly the value on the stack or stopping with the error with which evaluation stops; a text that is no expression is refused.", "quantifier": "all texts (token sequences of any length and nesting depth) over operands of the integer types, bool, char and real, all values of variables, all contents of the stack, all effects of designators (calls)", "why_tests_cant": "The number of operator combinations and nesting depths is unbounded, and a wrong jump or precedence shows only for particular combinations of operators, types and values.", "anchors": ["src/umka_expr.c:parseExpr", "src/umka_expr.c:parseLogicalExpr", "src/umka_expr.c:parseLogicalTerm", "src/umka_expr.c:parseRelation", "src/umka_expr.c:parseRelationTerm", "src/umka_expr.c:parseTerm", "src/umka_expr.c:parseFactor", "src/umka_expr.c:doApplyOperator", "src/umka_gen.c:genShortCircuitProlog", "src/umka_gen.c:genShortCircuitEpilog", "src/umka_gen.c:genIfCondEpilog", "src/umka_gen.c:genElseProlog", "src/umka_gen.c:genIfElseEpilog", "src/umka_vm.c:vmLoop", "doc/lang.md"]}
{"id": "C65", "title": "&&, || and ?: evaluate only the operands they need", "statement": "If the left operand of && is false, or that of || is true, the right one is not evaluated; of a ? b : c exactly one of b and c is evaluated. Whatever the other operand would do (calls, errors, changes) has no effect on the outcome.", "quantifier": "all operands of any size over the integer types, bool, char and real, all effects that designators (calls) could have, all states", "why_tests_cant": "A test can only try particular right operands; that none of their effects can be seen is a claim about all of them.", "anchors": ["src/umka_expr.c:parseLogicalTerm", "src/umka_expr.c:parseLogicalExpr", "src/umka_expr.c:parseExpr", "src/umka_gen.c:genShortCircuitProlog", "src/umka_gen.c:genShortCircuitEpilog", "src/umka_vm.c:doGotoIf", "src/umka_vm.c:doGotoIfNot"]}
{"id": "C66", "title": "Constant expressions have the values that evaluation at run time would give", "statement": "A constant expression is accepted if it is an expression of the documented grammar over constants that has a value, and its type and value are those that the same expression would have at run time.", "quantifier": "all expressions over constants of the integer types, bool, char and real, of any size and depth", "why_tests_cant": "The compiler computes constants with code of its own; that it agrees with the machine must hold for all expressions.", "anchors": ["src/umka_expr.c:parseExpr", "src/umka_expr.c:parseLogicalTerm", "src/umka_expr.c:parseLogicalExpr", "src/umka_expr.c:doApplyOperator", "src/umka_const.c:constUnary", "src/umka_const.c:constBinary"]}
{"id": "C67", "title": "A function that declares a result always ends with a return statement", "statement": "If a function that declares a result compiles, then in every execution of its body that comes to an end the end is a return statement: control never falls off the closing brace with the result undefined. Such a function is refused unless one of the statements of its outermost block is a return; returns inside if, switch or for do not count. Functions without a result are not restricted.", "quantifier": "all function bodies built from the control statements, all states and all executions", "why_tests_cant": "The statement is about all control flow paths of all bodies: a test runs some paths of some functions.", "anchors": ["src/umka_stmt.c: parseReturnStmt", "src/umka_stmt.c: parseFnBlock", "src/umka_common.c: blocksEnter"]}
{"id": "C68", "title": "A called function sees its arguments", "statement": "When a call `f(a, b, ...)`, `x.m(a, b, ...)` or of a closure is executed, first what is called is determined, then the arguments are evaluated from left to right, and each parameter of the function has the value its argument had when it was evaluated, after the implicit conversion; parameters without an argument get their default values (whether the items of a default dynamic array are still the declared ones is C87); a parameter `..T` has an array of the remaining arguments, or the dynamic array passed for it; the receiver is the receiver. A structured result is written to a zeroed variable of this call only. After the return the evaluation stack is as before plus the result. If the evaluation of an argument fails, the function is not entered.", "quantifier": "every signature, every kind of call, all arguments with arbitrary side effects, every stack and memory", "why_tests_cant": "Tests call functions with a few parameters; the slots of a call depend on sizes of all parameters, defaults, variadic lists and hidden parameters together.", "anchors": ["src/umka_expr.c:parseActualParamsAndCall", "src/umka_expr.c:parseVariadicParamList", "src/umka_expr.c:doPassParam", "src/umka_decl.c:parseSignature", "src/umka_types.c:typeParamOffset", "src/umka_vm.c:doCall"]}
{"id": "C69", "title": "Calls are accepted exactly if arguments and parameters match", "statement": "A call is accepted if and only if each parameter without default value, other than a last one `..T`, has an argument, there are not more arguments than parameters (unless the last is `..T`), each argument can be converted to the type of its parameter, and the function is defined.", "quantifier": "every signature the compiler accepts, every list of arguments", "why_tests_cant": "The number of allowed omissions is computed from the kinds of the last parameters; tests try a few counts only.", "anchors": ["src/umka_expr.c:parseActualParamsAndCall", "src/umka_decl.c:parseSignature", "src/umka_types.c:typeAddParam"]}
{"id": "C70", "title": "Array and structure literals have the values of their expressions", "statement": "In `T{...}` each item or named field has the value its expression had when it was evaluated, expressions are evaluated in the order of the text, and fields that are not mentioned are zero. The literal is refused if a field is unknown or given twice, if some expressions have names and some not, if there are too many or too few items, or if a type does not fit; it is accepted otherwise.", "quantifier": "every array and structure type, every list of expressions with arbitrary side effects outside the literal", "why_tests_cant": "Tests use literals with a few fields and pure expressions.", "anchors": ["src/umka_expr.c:parseArrayOrStructLiteral", "src/umka_types.c:typeAssertFindField"]}
{"id": "C71", "title": "Dynamic array literals and variadic lists have the values of their expressions", "statement": "Each item of `[]T{...}`, and of the array passed for a parameter `..T`, has the value its expression had when it was evaluated, whatever the expressions after it do; the length is the number of expressions, and the data are in new memory.", "quantifier": "every item type and every list of expressions with arbitrary side effects", "why_tests_cant": "The copies are made after the last expression has been evaluated, which only shows if a later expression changes what an earlier one refers to.", "anchors": ["src/umka_expr.c:parseDynArrayLiteral", "src/umka_expr.c:parseVariadicParamList", "src/umka_vm.c:doBuiltinMakeFromArr"]}
{"id": "C72", "title": "Closures capture copies at creation", "statement": "A closure `fn (...) |x, y| {...}` captures copies of the variables as they are when the literal is evaluated: whenever it is called, and however often, its function begins with variables that have these values, whatever happens to the original variables and to the copies of earlier calls. A literal that captures a variable twice is refused.", "quantifier": "every list of captured variables of any types, every later state in which the captured data have not been overwritten, any number of calls", "why_tests_cant": "Depends on what happens between creation and each call.", "anchors": ["src/umka_expr.c:parseClosureLiteral", "src/umka_stmt.c:parseFnBlock", "src/umka_vm.c:doPushUpvalue"]}
{"id": "C73", "title": "A designator denotes what its selectors select", "statement": "Selectors are applied from left to right, each to what the ones before it denote: `^` follows a pointer, `[...]` selects an item of an array, dynamic array, map or string or of what a pointer to one points to, `.` a field of a structure or of what a pointer to one points to. The value of the designator in an expression is what is stored there, `&` is its address; null pointers and indices out of bounds give an error. Designators that make no sense are refused. This does not depend on whether the pointer comes from a variable or from a function.", "quantifier": "every designator with any number of selectors, over every type, every memory, every index expression with or without side effects", "why_tests_cant": "Chains of selectors over nested types cannot be enumerated, and the compiler treats stored and computed pointers differently.", "anchors": ["src/umka_expr.c:parseSelectors", "src/umka_expr.c:doTryImplicitDeref", "src/umka_vm.c:doGetArrayPtr", "src/umka_vm.c:doGetDynArrayPtr", "src/umka_vm.c:doGetFieldPtr", "src/umka_vm.c:doDerefImpl"]}
{"id": "C74", "title": "An assignment changes the designated variable and nothing else", "statement": "`d = e` evaluates the designator, then the expression, and stores the value: afterwards the variable, field or item has this value, and all other variables, fields and items have the value they had before. If the designator or the expression fails, the place is null or the value does not fit, there is an error.", "quantifier": "every designator, every expression, every type of the variable, every pair of paths of fields and items inside a variable", "why_tests_cant": "The frame condition is about all other paths in all types.", "anchors": ["src/umka_stmt.c:parseSingleAssignmentStmt", "src/umka_vm.c:doAssignImpl", "src/umka_types.c:typeFindField"]}
{"id": "C75", "title": "Short assignments evaluate the designator once", "statement": "`d op= e` evaluates the designator once, combines the stored value with that of the expression, and stores the result at the place the designator denoted; if the designator has no side effects it does the same as `d = d op e`. `d++` and `d--` do the same with one, and also report null pointers.", "quantifier": "every designator, operator, expression and memory", "why_tests_cant": "Errors and side effects of arbitrary index expressions have to be compared.", "anchors": ["src/umka_stmt.c:parseShortAssignmentStmt", "src/umka_stmt.c:parseIncDecStmt", "src/umka_vm.c:doUnary"]}
{"id": "C76", "title": "Only variables can be assigned", "statement": "An assignment, short assignment, increment or decrement is accepted exactly if its left side is a variable, an item, a field or what a pointer points to; constants, results of functions, composite literals and characters of strings are refused.", "quantifier": "every designator and every statement", "why_tests_cant": "The set of designators is infinite.", "anchors": ["src/umka_stmt.c:parseSimpleStmt", "src/umka_expr.c:parseDesignator"]}
{"id": "C77", "title": "Declared types mean what is written", "statement": "After an accepted list of type declarations every declared name is the type that is written, whether the types it mentions are declared before, later in the list or outside of the block; types written elsewhere are as written; a type never changes afterwards. A function type has the hidden parameter for its result exactly if the result type is structured.", "quantifier": "every program with any nesting of blocks, every list of type declarations and every type expression", "why_tests_cant": "Types may refer to each other in cycles, and a type that is used before it is declared is filled in later, so the effect depends on the whole history.", "anchors": ["src/umka_decl.c:parseTypeDecl", "src/umka_decl.c:parseTypeOrForwardType", "src/umka_decl.c:parseSignature", "src/umka_ident.c:identTryResolveForwardType", "src/umka_types.c:typeDeepCopy"]}
{"id": "C78", "title": "Declared types are complete, finite and of the right size", "statement": "Between declarations no type is left incomplete, no type contains itself, every type has the size and the alignment that follow from its parts, and every type whose values hold references is marked so that they are counted. Names of fields, methods and parameters are different, fields and items are not void.", "quantifier": "every program with any nesting of blocks, every list of type declarations and every type in it", "why_tests_cant": "Mutually recursive declarations of any length and order have to be considered.", "anchors": ["src/umka_types.c:typeAddField", "src/umka_types.c:typeEnableForward", "src/umka_types.c:typeSizeNoCheck", "src/umka_types.h:typeResizeArray", "src/umka_decl.c:parseArrayType"]}
{"id": "C79", "title": "Types can be used before their declaration exactly where documented", "statement": "Within a list of type declarations a name may be used before it is declared exactly as a pointer base type, a dynamic array base type, a map item type, a parameter type or a result type; every list that keeps this rule and is correct otherwise is accepted; everywhere else only visible names can be used.", "quantifier": "every program with any nesting of blocks, every list of type declarations and every type expression", "why_tests_cant": "The rule is about every position at any depth in every list.", "anchors": ["src/umka_decl.c:parseTypeOrForwardType", "src/umka_decl.c:parseType", "src/umka_types.c:typeAddField", "src/umka_types.c:typeEnableForward", "doc/lang.md"]}
{"id": "C80", "title": "No type name is declared twice in a block", "statement": "A declaration of a name that is declared already in the same block is refused, within a list of type declarations and between declarations; until the end of the block a name stays what it is, and leaving a block restores the names of the outer one.", "quantifier": "every program with any nesting of blocks and every list of type declarations", "why_tests_cant": "A name used before its declaration is in the table already when it is declared, so acceptance depends on the history.", "anchors": ["src/umka_ident.c:identAdd", "src/umka_ident.c:identTryResolveForwardType", "src/umka_decl.c:parseTypeDeclItem"]}
{"id": "C81", "title": "Values are implicitly converted exactly where the reference says so", "statement": "Where a value of some type is expected, an expression of another type is accepted exactly if one of the rules for implicit conversions in the language reference applies (compatible types, integers to real numbers, characters and strings, arrays and dynamic arrays, values and pointers to interfaces with their methods, interfaces, null and void pointers, weak pointers, functions to closures, expression lists item by item); anything else is a compile-time error. What is accepted in a constant expression is accepted elsewhere.", "quantifier": "every pair of types of a program, with any nesting, recursion and any declared methods", "why_tests_cant": "There are unboundedly many pairs of types, and the rules are a long chain of cases in which an earlier one may hide a later one.", "anchors": ["src/umka_expr.c:doImplicitTypeConvEx", "src/umka_expr.c:doAssertImplicitTypeConv", "src/umka_types.c:typeCompatible", "src/umka_expr.c:doPtrToInterfaceConv", "src/umka_expr.c:doExprListToExprListConv"]}
{"id": "C82", "title": "Casts are accepted exactly where the reference says so, and compiling them ends", "statement": "A cast is accepted exactly if the value can be implicitly converted or one of the rules for explicit conversions applies (types that differ in their names, ordinal types, pointers to pointer-free types that are not larger, interfaces, bytes and strings, dynamic arrays whose items can be cast); the result has the type of the cast. For every program the compiler comes to an end.", "quantifier": "every pair of types of a program, with any nesting and recursion", "why_tests_cant": "Casts of dynamic arrays are compiled recursively over types that may contain themselves; no finite set of types covers the recursion.", "anchors": ["src/umka_expr.c:doExplicitTypeConv", "src/umka_expr.c:doDynArrayToDynArrayConv", "src/umka_expr.c:parseTypeCast", "src/umka_types.h:typeExplicitlyConvertibleBaseTypes"]}
{"id": "C83", "title": "Converting an array or a list of expressions converts each item", "statement": "The result of a cast between dynamic arrays has the length of the original array, and each item is what a cast of the single item gives; if the conversion of an item fails, the program stops with this error. The same holds for lists of expressions that are assigned or returned where other types are expected. If the types differ only in their names, nothing is converted.", "quantifier": "every dynamic array and list of any length with any item types, and every conversion of items", "why_tests_cant": "The loop is generated code that depends on the types; lengths, positions of failing items and the nesting are unbounded.", "anchors": ["src/umka_expr.c:doDynArrayToDynArrayConv", "src/umka_expr.c:doExprListToExprListConv"]}
{"id": "C84", "title": "The operands of an operator are converted to one type, whatever their order", "statement": "A binary operator is accepted exactly if one operand can be implicitly converted to the type of the other one and the operator applies to this type, so acceptance does not depend on the order of the operands; a string and a dynamic array become strings, an array and a dynamic array arrays, a pointer and a weak pointer pointers. Each conversion acts on the operand it is meant for. In a short assignment only the right-hand side is converted.", "quantifier": "every pair of operand types of a program and every binary operator", "why_tests_cant": "Two conversions are tried one after the other, the second with the outcome of the first, so the cases multiply over all pairs of types.", "anchors": ["src/umka_expr.c:doApplyOperator", "src/umka_expr.c:doImplicitTypeConvEx", "src/umka_types.c:typeValidOperator", "src/umka_types.c:typeComparable"]}
{"id": "C85", "title": "Function results are handed over without a copy exactly when they are used at once", "statement": "If the result of a call (or of an operator or conversion that makes a new value) is passed, returned, stored in a new variable or assigned right away, then the compiled program is the one in which the result was never copied to a temporary variable, that variable is not released, and no reference is counted for the new owner. If anything was compiled in between - another operator, a jump target, a second use - then the copy stays, is released at the end of its block, and the new owner's reference is counted. The compiler never fails with an internal error here, and the copy itself changes nothing but the temporary variable.", "quantifier": "All sequences of code generation requests, declarations, blocks, jumps and uses of values that the compiler can make; all types and machine states", "why_tests_cant": "Whether a copy may be dropped depends on everything that was compiled since it was made; a wrong decision leaks or frees a value only for particular combinations of calls, blocks and optimizations", "anchors": ["src/umka_expr.c:doCopyResultToTempVar", "src/umka_expr.c:doTryRemoveCopyResultToTempVar", "src/umka_expr.c:doTryOptimizeIncRefCnt", "src/umka_expr.c:doTryOptimizeRefCntAssign", "src/umka_gen.c:genCopyResultToTempVar", "src/umka_gen.c:genTryRemoveCopyResultToTempVar", "src/umka_ident.c:identAllocTempVar"]}
{"id": "C86", "title": "Global variables, constants and default values start with the values of their initializers", "statement": "When a program starts, each global variable has the value of its initializer converted to its type (numbers, characters, strings, arrays, dynamic arrays and structures, nested to any depth, with named fields and declared constants in them), or zeros if it has none; each constant and each default value of a parameter has the value of its expression, and the list of a variadic parameter without arguments is empty. Initializers with numbers out of range, wrong numbers of items, unknown or repeated fields or wrong types are refused, and no others are. No two global variables, nor a variable and a default value, share data that can be changed.", "quantifier": "all programs: any sequence of declarations with any types and initializers", "why_tests_cant": "Each initializer is a program of the compiler: blocks are allocated inside blocks that are being filled; tests try a few nestings.", "anchors": ["src/umka_const.c:constAssign", "src/umka_const.c:constDeref", "src/umka_expr.c:parseArrayOrStructLiteral", "src/umka_expr.c:parseDynArrayLiteral", "src/umka_common.c:storageAddDynArray", "src/umka_stmt.c:parseListDeclAssignmentStmt", "src/umka_decl.c:parseVarDeclItem"]}
{"id": "C87", "title": "A parameter without an argument has its default value in every call", "statement": "In every call that omits the argument for a parameter with a default value, or all arguments for a variadic parameter, the parameter has the declared default value, or the empty list, whatever the program has done before.", "quantifier": "all programs and all histories of calls, assignments, appending and deleting", "why_tests_cant": "Tests call a function with a default once or twice, and do not change the parameter in between.", "anchors": ["src/umka_expr.c:parseActualParamsAndCall", "src/umka_decl.c:parseSignature", "src/umka_common.c:storageAddDynArray", "src/umka_vm.c:doBuiltinAppend", "src/umka_vm.c:doBuiltinDeleteDynArray"]}
{"id": "C88", "title": "Run-time errors are located in the function and at a line of the code that failed", "statement": "The report of a run-time error names the file and the function that the failing instruction was written in, and the line of the failing statement or expression; this holds for functions, methods, function literals (which have no name), and functions of imported modules, whatever the optimizer has removed or merged.", "quantifier": "all programs, all instructions of the generated code", "why_tests_cant": "Tests check the location of a few errors; a wrong location needs a particular combination of nested functions, imports, jumps patched later and optimized instructions.", "anchors": ["src/umka_gen.c:genAddInstr", "src/umka_gen.c:genEntryPoint", "src/umka_gen.c:genLeaveFrameFixup", "src/umka_stmt.c:parseFnBlock", "src/umka_expr.c:parseClosureLiteral", "src/umka_api.c:runtimeError"]}
{"id": "C89", "title": "The call stack lists the calls that have not returned", "statement": "The entries reported by the call stack query are: the running instruction, then for each function call in progress, innermost first, the place it was made at, up to the call made by the host, by an external function or as the function of a fiber; no others.", "quantifier": "all executions: any nesting of calls, closures, fibers and callbacks from external functions", "why_tests_cant": "A test sees the call stack of a few fixed programs; calls in progress depend on the history of the execution.", "anchors": ["src/umka_vm.c:vmUnwindCallStack", "src/umka_api.c:umkaGetCallStack", "src/umka_vm.c:doCall", "src/umka_vm.c:doReturn", "src/umka_vm.c:doEnterFrame"]}
{"id": "C90", "title": "A module is accepted without a syntax error exactly when the documented grammar derives it", "statement": "A module is compiled without a syntax error if and only if its text can be derived from the grammar in the language reference: nothing that follows the grammar is rejected for its syntax, and nothing else is accepted.", "quantifier": "all token sequences, with any nesting of types, blocks and statements", "why_tests_cant": "The texts a grammar derives are infinitely many and the parser decides by looking at single tokens; tests parse a few programs that are known to be correct and a few with one error.", "anchors": ["src/umka_decl.c:parseModule", "src/umka_decl.c:parseDecls", "src/umka_decl.c:parseType", "src/umka_decl.c:parseSignature", "src/umka_stmt.c:parseStmt", "src/umka_stmt.c:parseSimpleStmt", "src/umka_stmt.c:parseSwitchStmt", "src/umka_lexer.c:lexEat", "doc/lang.md:Grammar"]}
{"id": "C91", "title": "Files hold what has been written to them", "statement": "Opening a file with std::fopen succeeds exactly for the modes of C, files the system allows, and files that exist unless they are opened for writing or appending; files opened for writing are emptied, no other file changes. fwrite puts the bytes of the variable at the position (at the end in append mode) and reports a write that was cut short; fread and freadall return the bytes of the file, in whatever pieces they are read, and report a file that is too short; what is written to a file in pieces is what is read from it later. fseek and ftell set and report positions; feof tells whether the end has been reached.", "quantifier": "all file contents, names, modes, positions, variables, sizes of pieces and limits of the system", "why_tests_cant": "Contents, positions, modes and ways to cut data into pieces are unbounded; tests use a few small files.", "anchors": ["runtime/std.um: fopen, fread, fwrite, freadall, fseek, ftell, feof", "src/umka_runtime.c: rtlfopen, rtlfread, rtlfwrite, rtlfseek, rtlftell, rtlfeof"]}
{"id": "C92", "title": "File handles are closed once and their misuse is reported", "statement": "A null or closed handle is reported by every function of the library and nothing happens. No sequence of operations on files, with handles copied, closed, closed again or dropped in any order, makes the library use a stream that is not open or close a stream twice. A handle the program drops without closing is closed; fclose does not affect other handles.", "quantifier": "all sequences of operations with files, of any length", "why_tests_cant": "The histories of handles are unbounded; a stream used after it was closed goes unnoticed in most runs.", "anchors": ["runtime/std.um: fopen, fclose", "src/umka_runtime.c: rtlfopen, rtlfclose, rtlOnFreeFile, rtlstdin, rtlstdout, rtlstderr"]}
{"id": "C93", "title": "tobytes and frombytes copy values exactly", "statement": "std::tobytes returns exactly the bytes of a variable without pointers; std::frombytes gives a variable exactly these bytes and changes no other variable; a wrong length, null and variables with pointers are reported, and nothing changes.", "quantifier": "all variables and byte arrays", "why_tests_cant": "Values and sizes are unbounded.", "anchors": ["runtime/std.um: tobytes, frombytes", "src/umka_runtime.c: rtlmemcpy"]}
{"id": "C94", "title": "Numbers survive conversion to strings and back", "statement": "std::itoa gives the decimal text of an integer, std::ftoa the text that C's printf gives for %.Nf with the requested number of decimals (a negative number of decimals is a run-time error); std::atoi gives the integer at the beginning of a string (after blanks, with an optional sign) and zero if there is none, std::atof the real that C's sscanf finds; atoi(itoa(x)) == x for every int x; a null string is a run-time error and no conversion is undefined behaviour", "quantifier": "every int value, every real and number of decimals, every string of bytes", "why_tests_cant": "The domain of integers has 2^64 elements and that of strings is infinite; unit tests convert a few numbers", "anchors": ["runtime/std.um: atoi, atof, itoa, ftoa", "src/umka_vm.c: doBuiltinPrintf, doBuiltinScanf, fsscanf"]}
{"id": "C95", "title": "The compiler warns about unused and shadowing names exactly where it should", "statement": "When a module ends, a declaration made in it has been reported as not used exactly if no name in the program referred to it and it is neither exported, predeclared, a parameter, an index or key of a loop, the variable of a type switch, a type declared ahead, named _ or #..., nor main; modules are reported as modules, nothing twice. A declaration is reported as shadowing exactly if it hides a declaration of an enclosing block of the same function.", "quantifier": "every program text, with any nesting of blocks and any number of modules", "why_tests_cant": "The texts and their nesting are unbounded; tests show a few warnings but not the absence of wrong ones", "anchors": ["src/umka_ident.c: identAdd, identFree, identFindEx, identWarnIfUnused, identWarnIfUnusedAll", "src/umka_stmt.c: doResolveExtern"]}
{"id": "C96", "title": "The listing of a compiled program is complete", "statement": "The listing that the host requests of a compiled program shows every instruction up to the final one, in order, each on a line with its number, the line of the source, the opcode and all its operands, with a headline for each module and function and an empty line wherever the flow of control may change; the host gets it whole, and nothing is written outside the memory reserved for it", "quantifier": "all compiled programs of any length, all names and operands", "why_tests_cant": "The text is produced twice, once to measure it and once to write it, through nested calls that pass remaining sizes; whether both agree for every program length and every instruction is not seen from sample listings", "anchors": ["src/umka_api.c:umkaAsm", "src/umka_compiler.c:compilerAsm", "src/umka_gen.c:genAsm", "src/umka_vm.c:vmAsm"]}
{"id": "C97", "title": "The host finds exactly the functions that the program declares", "statement": "After a successful compilation, looking up a function by the path of its module (or none for the main module) and its name succeeds iff that module declares a function of that name at its top level, and the context obtained is that of this function; methods, variables, types, local functions and built-in functions of the same name are never taken for it, and no name or path makes the lookup itself misbehave", "quantifier": "all compiled programs, all module paths and all names", "why_tests_cant": "Which of several declarations of a name the search meets first depends on the order of declarations, blocks and imports of the whole program; tests look up a few functions of one program", "anchors": ["src/umka_api.c:umkaGetFunc", "src/umka_compiler.c:compilerGetFunc", "src/umka_ident.c:identFindEx", "src/umka_common.c:moduleFind,moduleAssertRegularizePath"]}
{"id": "C98", "title": "Messages spell every type as it would be written, cut to the size of their buffer", "statement": "The spelling of a type in error messages, string representations and listings is the type as one would write it, with levels of pointers and items deeper than ten shown as dots; a spelling longer than 255 characters is cut there; producing it never writes outside the buffers provided for it", "quantifier": "all types, of any nesting, with names of any length", "why_tests_cant": "Types nest without limit and every level has its own buffer; whether some combination of names, keys, parameters and results overflows one of them depends on all lengths together", "anchors": ["src/umka_types.c:typeSpellingRecursive", "src/umka_types.c:typeSpelling"]}
{"id": "C99", "title": "Call and return hooks are reported in nested pairs, fiber by fiber", "statement": "With both debug hooks set, in every execution the reports from one fiber are nested: a return is reported only for the function whose call was reported last among those not yet reported as returned; while a function runs it is this one, and there are as many of them as calls in progress; a fiber that has ended, and the fiber in which the call by the host ends without an error, has reported all returns; each report names the file, the function and a line of the function it is about. A host that follows the reports therefore always knows the current call stack.", "quantifier": "all compiled programs (with calls, callbacks from external functions, fibers) and all their execution prefixes", "why_tests_cant": "tests follow the hooks of a few runs without nested callbacks and fibers; the pairing must hold for every call depth and every order of switches between fibers", "anchors": ["src/umka_api.c:umkaSetHook", "src/umka_vm.c:doHook", "src/umka_vm.c:doEnterFrame", "src/umka_vm.c:doLeaveFrame", "src/umka_vm.c:vmSetHook"]}
{"id": "C100", "title": "The command line does what the usage text says", "statement": "Every command line of the form umka parameters file script-parameters is obeyed: all parameters in any order and number, the last stack size counts, -sandbox denies the file system and native libraries; everything after the file name reaches the script unchanged through std::argc and std::argv. The script is executed exactly if it compiles, -check was not given and the listing asked for was written. The exit status is 0 after a normal end, the code given to exit(), 255 after a run-time error, and 1 if the file did not compile; the message given to exit() is shown. Other command lines are refused.", "quantifier": "all lists of arguments, all outcomes of initialization, compilation, writing of the listing and execution", "why_tests_cant": "tests start the program with a few fixed command lines; the claim is about every order and combination of parameters, every number and every exit code", "anchors": ["src/umka.c:main", "src/umka.c:printRuntimeError", "src/umka_api.c:umkaRun", "src/umka_vm.c:doBuiltinExit", "src/umka_compiler.c:compilerInit", "src/umka_runtime_src.h:argv"]}
{"id": "C101", "title": "Dynamic arrays changed in place stay exactly counted", "statement": "After any sequence of make, array literals, copy, append, insert, delete, slice, assignments of arrays and of their items, releases of variables, every dynamic array is counted exactly as often as variables and items of arrays refer to it; it is freed exactly when nothing refers to it, no operation uses a freed array, releases end, and when the last variable is gone nothing is left unless an array contains itself. The result of each built-in function is the array promised by the language reference, also when the array is changed in place and shared with other variables.", "quantifier": "all sequences of operations on any number of arrays of any length, with items that hold any number of arrays, arrays that share or contain each other or themselves, and all capacities", "why_tests_cant": "Tests run a few operations on arrays of a few items; whether counts are exact depends on the whole history, on the capacity at each step, and on which variables share an array.", "anchors": ["src/umka_vm.c:doBuiltinAppend", "src/umka_vm.c:doBuiltinInsert", "src/umka_vm.c:doBuiltinDeleteDynArray", "src/umka_vm.c:doBuiltinSlice", "src/umka_vm.c:doBuiltinCopyDynArray", "src/umka_vm.c:doBuiltinMakeFromArr", "src/umka_vm.c:doAllocDynArray", "src/umka_vm.c:doRefCntImpl"]}
{"id": "C102", "title": "Calls of built-in functions follow the documented signatures", "statement": "A call of a built-in function other than input and output is accepted if and only if its arguments match one of the signatures of the language reference, and its type is the documented result type. Evaluating it takes from the stack only what it has put there and leaves exactly its result. In constant expressions exactly the mathematical functions, len and cap of constant strings and fixed arrays, sizeof and typeptr of constant arguments are accepted, and they leave no trace in the program.", "quantifier": "all built-in functions except input and output, all lists of arguments of all types, in constant and other expressions", "why_tests_cant": "Tests call each function with a few types; there are unboundedly many argument types, and a stack left unbalanced by one combination shows only in an enclosing expression.", "anchors": ["src/umka_expr.c:parseBuiltinCall", "src/umka_expr.c:parseBuiltinNewCall", "src/umka_expr.c:parseBuiltinMakeCall", "src/umka_expr.c:parseBuiltinAppendCall", "src/umka_expr.c:parseBuiltinSortCall", "src/umka_expr.c:parseBuiltinSizeOfCall", "src/umka_vm.c:doBuiltinNew"]}
{"id": "C103", "title": "Shutting down releases everything once and reports leaks", "statement": "umkaFree gives every heap page back exactly once, whatever the program and the host have left in the heap, and calls the deallocator of every block still referenced exactly once, also if deallocators release other data. After a normal end it reports every page with memory still referenced and its number of references, and at leak level 2 and above every place that has allocated such memory exactly once per page; at level 0 and after a run-time error it reports nothing.", "quantifier": "all heaps at the end of a run: any number of pages in use, recycled and set aside, blocks with any counts, and deallocators", "why_tests_cant": "Tests shut down a few heaps; double release and use after release depend on which pages hold the last references and on the order of pages.", "anchors": ["src/umka_vm.c:pageFree", "src/umka_vm.c:pageLeakSan", "src/umka_vm.c:chunkRefCnt", "src/umka_vm.c:pageRemove", "src/umka_vm.c:pageFind"]}
{"id": "C104", "title": "The vector and matrix library computes the usual operations", "statement": "Up to rounding, the functions of mat.um on vectors and matrices are the usual operations of linear algebra; normalizing gives a vector of length 1 with the same direction for every vector except zero; the rate matrix multiplies like the cross product; the attitude matrix of any angles is a rotation by roll, pitch and yaw in this order; angles and attitude matrix determine each other unless the first axis points straight up or down; normalizing a matrix gives an orthogonal matrix.", "quantifier": "all vectors, matrices, scalars and angles, as real numbers", "why_tests_cant": "Tests compare a few matrices; the identities must hold for all of a continuum of inputs.", "anchors": ["src/umka_runtime_src.h:mat.um", "runtime/mat.um:mulm", "runtime/mat.um:toAttMat", "runtime/mat.um:toAttAngles", "runtime/mat.um:normalize"]}
{"id": "C105", "title": "Queries about the variable behind an interface describe what was converted", "statement": "After a value of a type T is converted to an interface, and that to other interfaces through variables in any chain, sizeofself is the size of T, selfptr points to a copy of the value, selfhasptr tells whether T contains pointers, valid is true, and selftypeeq of two such interfaces tells whether the types are equivalent. For a converted pointer they describe the pointer and the type it points to, and valid tells whether it is null. Variables that were never assigned to are not valid, and an interface among them reports no size, no pointer and no type.", "quantifier": "all types, values, pointers, chains of conversions and variables, and later states of memory in which the interface is unchanged", "why_tests_cant": "The types of a program form arbitrary, possibly cyclic graphs and chains of conversions are unbounded.", "anchors": ["src/umka_vm.c:doBuiltinSizeOfSelf", "src/umka_vm.c:doBuiltinSelfPtr", "src/umka_vm.c:doBuiltinSelfHasPtr", "src/umka_vm.c:doBuiltinSelfTypeEq", "src/umka_vm.c:doBuiltinValid", "src/umka_types.c:typeHasPtr"]}
{"id": "C106", "title": "A function of the host sees its arguments as they were declared", "statement": "Inside a function of the host called by a program, umkaGetParamType and umkaGetResultType give the declared types of the parameters and of the result, umkaGetParam gives the slots of the parameters, and a null pointer for any other number, umkaGetUpvalue gives the slots of the captured variables, and umkaGetResult gives the caller's storage for a structured result and the result slot otherwise. In a function called when a chunk is freed, the only parameter is that chunk, and all types are null pointers.", "quantifier": "all declarations with any number of parameters of any types and sizes, all parameter numbers, and all nestings of functions called when chunks are freed", "why_tests_cant": "The positions of the types in the shared record depend on the number of parameters, and callbacks can free further chunks to any depth.", "anchors": ["src/umka_api.c:umkaGetParam", "src/umka_api.c:umkaGetUpvalue", "src/umka_api.c:umkaGetResult", "src/umka_api.c:umkaGetParamType", "src/umka_api.c:umkaGetResultType", "src/umka_types.c:typeMakeStackFrameLayout", "src/umka_vm.c:doGetOnFreeParams", "src/umka_common.h:getParamTypes"]}
{"id": "C107", "title": "The host can find out what a type is made of", "statement": "For every type declared in a program, umkaGetBaseType gives what a pointer points to or the item type of an array or dynamic array, umkaGetFieldType gives the type of the field with the given name of a structure, umkaGetMapKeyType and umkaGetMapItemType give the key and item types of a map, each as declared, and a null pointer for types of other kinds or names of no field. Types declared later do not change the answers. A structure is accepted exactly if its field names differ and its field types exist and are not void.", "quantifier": "all sequences of type declarations, all types made of each other in any way, all field names", "why_tests_cant": "Types are built from each other without bound, and the answer for a map goes through four types made by the compiler.", "anchors": ["src/umka_api.c:umkaGetBaseType", "src/umka_api.c:umkaGetFieldType", "src/umka_api.c:umkaGetMapKeyType", "src/umka_api.c:umkaGetMapItemType", "src/umka_types.c:typeFindField", "src/umka_types.c:typeAddField", "src/umka_decl.c:parseMapType", "src/umka_decl.c:parseStructType"]}
{"id": "C108", "title": "Strings made by the host are ordinary strings", "statement": "umkaMakeStr makes of every zero-terminated string of up to 2147482623 bytes a new Umka string with the same bytes, whose umkaGetStrLen is their number; strings that exist already, and variables, are unchanged. Longer strings are at worst refused with a run-time error. A null pointer becomes a null string of length 0. What is made is the same as what the program makes of these characters, so that all operations on strings behave on it as on others.", "quantifier": "all contents of host memory, all states of the program's strings", "why_tests_cant": "The lengths and contents are unbounded, and an error at the boundary of the capacity would overwrite other memory.", "anchors": ["src/umka_api.c:umkaMakeStr", "src/umka_api.c:umkaGetStrLen", "src/umka_vm.c:vmMakeStr", "src/umka_vm.c:doAllocStr"]}
{"id": "C109", "title": "A dynamic array made and filled by the host is an ordinary array", "statement": "After umkaMakeDynArray at a variable of the program and stores of the items through its data pointer, umkaGetDynArrayLen gives the number of the items, the program reads each item at its index and gets an index error at every other index, and no other variable or existing array changes. The call gives what the program's own make gives for every length, refuses exactly the illegal lengths, ignores a null pointer, and an array never set has length 0.", "quantifier": "every item list that fits, every requested length, every item size, every state of the existing arrays", "why_tests_cant": "tests use a few short arrays; the claim ranges over all lengths, including those near the limits, and over all existing arrays", "anchors": ["src/umka_api.c:umkaMakeDynArray", "src/umka_api.c:umkaGetDynArrayLen", "src/umka_vm.c:vmMakeDynArray"]}
