import Verif.Syntax.Module
import Verif.Syntax.Decide
/-
The properties of the area Syntax.
-/
namespace Umka.Syntax.Props
open Umka.Syntax Spec Spec.EBNF

/-- C90 (partial): the modules that are accepted without a syntax error are exactly those of the grammar `accepted`. What is
missing for the full statement is that this grammar is the documented one: see the next theorems. -/
theorem C90_accepted_exactly_partial (ts : List Tok) : accepts ts = true ↔ Derives accepted (nt .program) ts := accepts_iff

/-- C90 (partial): apart from 24 rules (and the rules that only these use) the grammar `accepted` is the documented one. -/
theorem C90_rules_as_documented_partial : (∀ n, n ∉ changed → n ∉ added → accepted n = documented n) ∧ changed.length = 24 ∧
    ∀ n ∈ added, documented n = .never := by
  refine ⟨fun n => ?_, rfl, by decide⟩
  cases n <;> decide

-- `type t = fn(x: int): (int, [3]^str); fn f(x: int, y: int = 1) { if x := 2; x > y { return x } else { for i in z { i++ } } }`
example : accepts ([.kType, .ident, .eq, .kFn, .lpar, .ident, .colon, .ident, .rpar, .colon, .lpar, .ident, .comma, .lbracket, .expr,
    .rbracket, .caret, .ident, .rpar, .semi, .kFn, .ident, .lpar, .ident, .colon, .ident, .comma, .ident, .colon, .ident, .eq, .expr, .rpar,
    .lbrace, .kIf, .ident, .colonEq, .expr, .semi, .expr, .lbrace, .kReturn, .ident, .rbrace, .kElse, .lbrace, .kFor, .ident, .kIn, .ident,
    .lbrace, .ident, .incDec, .rbrace, .rbrace, .rbrace]) = true := by decide +kernel
-- `type t = fn(x: int): (int, )` is not
example : ¬ Derives accepted (nt .program) [.kType, .ident, .eq, .kFn, .lpar, .ident, .colon, .ident, .rpar, .colon, .lpar, .ident, .comma,
    .rpar] := by rw [← accepts_iff]; decide +kernel

/-! ### Where the documentation and the parser disagree -/

/-- The only rule of the documentation that derives the empty text. -/
def docEmpty : NT → Bool
  | .exportMark => true
  | _ => false

/-- The depth of the rules of the documentation. -/
def docDepth : NT → Nat
  | .breakStmt | .continueStmt | .expr | .designator | .nextConst | .names | .localVarDecl | .params | .defaults | .variadic |
    .closedStmt | .closedList | .lastExprCase | .lastTypeCase | .caseType => 1
  | .ptrType | .fnBlock | .singleAssgnStmt | .shortAssignmentStmt | .incDecStmt | .exprList | .designatorList => 3
  | .importItem | .typedIdentList | .typedParamList | .listDeclAssgnStmt | .switchStmt | .qualIdent => 4
  | .listAssgnStmt => 5
  | .varDeclItem | .declAssignmentStmt => 6
  | .shortVarDecl | .assignmentStmt => 7
  | .varDecl | .simpleStmt => 9
  | .type_ | .forHeader => 11
  | .decl => 13
  | .decls | .stmt => 15
  | .module_ | .stmtList => 17
  | .program => 18
  | _ => 2

/-- All kinds of tokens. -/
def allToks : List Tok :=
  [.kImport, .kType, .kConst, .kVar, .kFn, .kEnum, .kMap, .kStruct, .kInterface, .kWeak, .kIf, .kElse, .kSwitch, .kCase, .kDefault, .kFor,
    .kIn, .kBreak, .kContinue, .kReturn, .lpar, .rpar, .lbrace, .rbrace, .lbracket, .rbracket, .comma, .colon, .colonColon, .semi, .eq,
    .colonEq, .opEq, .incDec, .mul, .caret, .ellipsis, .str, .ident, .place, .call, .val, .expr]

theorem docTables : Tables documented docEmpty fun _ => allToks := by
  intro n
  refine ⟨by cases n <;> decide, fun x _ => ?_⟩
  show x ∈ allToks
  cases x <;> decide

theorem docWeights (n : NT) : weight docDepth docEmpty (documented n) ≤ docDepth n ∧ small docDepth docEmpty 22 (documented n) = true := by
  cases n <;> decide

theorem not_documented {ts : List Tok} (h : (rests documented (ts.length * 22 + 19) (nt .program) ts).contains [] = false) :
    ¬ Derives documented (nt .program) ts := by
  intro hd
  have := rests_complete docTables docWeights hd (by decide) (ts.length * 22 + 19) [] (by
    show ts.length * 22 + (1 + 18) ≤ _; omega)
  rw [List.append_nil] at this
  rw [List.contains_iff_mem.mpr this] at h
  cases h

theorem documented_of {n : Nat} {ts : List Tok} (h : (rests documented n (nt .program) ts).contains [] = true) :
    Derives documented (nt .program) ts := by
  obtain ⟨x, e, hx⟩ := rests_sound (List.contains_iff_mem.mp h)
  rw [e, List.append_nil]
  exact hx

/-- C90, violated: there are modules of the documented grammar that are rejected (each of the list, see the comments there). -/
theorem C90_documented_modules_violated : onlyDocumented.length = 11 ∧
    ∀ ts ∈ onlyDocumented, Derives documented (nt .program) ts ∧ accepts ts = false := by
  have h : (onlyDocumented.all fun ts => (rests documented 100 (nt .program) ts).contains [] && !accepts ts) = true := by decide +kernel
  refine ⟨rfl, fun ts hts => ?_⟩
  obtain ⟨h1, h2⟩ := Bool.and_eq_true_iff.mp (List.all_eq_true.mp h ts hts)
  exact ⟨documented_of h1, by simpa using h2⟩

/-- C90, violated: there are modules that are accepted and not derived from the documented grammar (each of the list). -/
theorem C90_accepted_modules_violated : onlyAccepted.length = 7 ∧
    ∀ ts ∈ onlyAccepted, accepts ts = true ∧ ¬ Derives documented (nt .program) ts := by
  have h : (onlyAccepted.all fun ts => accepts ts && !(rests documented (ts.length * 22 + 19) (nt .program) ts).contains []) = true := by
    decide +kernel
  refine ⟨rfl, fun ts hts => ?_⟩
  obtain ⟨h1, h2⟩ := Bool.and_eq_true_iff.mp (List.all_eq_true.mp h ts hts)
  exact ⟨h1, not_documented (by simpa using h2)⟩

end Umka.Syntax.Props
