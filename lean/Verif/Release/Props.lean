import Verif.Release.Compile
/-!
# When variables are released: properties

C38.  On every path through a function — the end of a block, `break`, `continue`, `return`, any number of iterations, any
outcome of conditions — each reference that a variable or a temporary holds is dropped exactly once.
-/

namespace Umka.Release.Props

/-- **C38.**  Every function of every program, and every function literal in it, drops the references of all its variables
exactly once, in every execution. -/
theorem C38_functions {items : List Item} {fns : List Code} {start cleanup : Code}
    (h : compile items = some (fns, start, cleanup)) :
    ∀ f ∈ fns, ReleasesAll f ∧ ∀ g ∈ f.closures, ReleasesAll g := by
  simp only [compile, bind, Option.bind_eq_some_iff, pure, Option.some.injEq, Prod.mk.injEq, Prod.exists] at h
  obtain ⟨cs, st, E, h, rfl, rfl, rfl⟩ := h
  exact (compileItems_ok good_init h).2

/-- **C38**, global variables.  Each of them holds a reference from the start, and the code executed at the end of the
program drops it. -/
theorem C38_globals {items : List Item} {fns : List Code} {start cleanup : Code}
    (h : compile items = some (fns, start, cleanup)) :
    ReleasesAll (.seq start cleanup) ∧
    ∀ events, Run start events .normal → events.length = (items.filter Item.counted).length := by
  simp only [compile, bind, Option.bind_eq_some_iff, pure, Option.some.injEq, Prod.mk.injEq, Prod.exists] at h
  obtain ⟨cs, st, E, h, rfl, rfl, rfl⟩ := h
  exact ⟨start_releases h, fun t hr => start_length h hr⟩

/-! ## An example

```
var a: []int
fn f(p: []int) {
    for i := g(); i < 3; i++ {
        x := p1() ? h1() : h2()
        if c() { break }
        if d() { return fn () { y := k() } }
        { z := l(); continue }
    }
}
var b: int
var c: str
```
-/

def c1 : Expr := .call .leaf true false

def body : Stmt :=
  .for_ (.decl .leaf [false]) .leaf (.expr .leaf)
    (.seq (.decl (.ternary (.call .leaf false false) c1 c1 true) [true])
      (.seq (.ifElse .skip .leaf .brk .skip)
        (.seq (.ifElse .skip .leaf (.ret (.closure true .leaf [] [] (.decl c1 [true]))) .skip)
          (.block (.seq (.decl (.call .leaf true true) [true]) .cont)))))

def program : List Item := [.global true, .fn [true] body, .global false, .global true]

/-- The program is accepted, with one function that contains one nested function. -/
example : (compile program).map (fun r => (r.1.length, r.1.map (·.closures.length))) = some (1, [1]) := by
  decide +kernel

/-- The function has an execution that stores references and returns in the middle of the loop. -/
example : ∃ fns start cleanup, compile program = some (fns, start, cleanup) ∧
    (∀ f ∈ fns, ReleasesAll f) ∧ ReleasesAll (.seq start cleanup) := by
  cases h : compile program with
  | none => exact absurd h (by unfold program body; intro h; have := congrArg Option.isSome h; revert this; decide +kernel)
  | some r => exact ⟨r.1, r.2.1, r.2.2, rfl, fun f hf => (C38_functions h f hf).1, (C38_globals h).1⟩

/-- An execution of a function `fn f(p: []int) { x := g(); if … { return } }`: the variables are `p` (1), the temporary for
the result of `g` (2) and `x` (3). -/
example : ∃ f : Code, (compile [.global true, .fn [true] (.seq (.decl c1 [true]) (.ifElse .skip .leaf (.ret .leaf) .skip))]).map
      (·.1) = some [f] ∧
    Run f [.own 1, .own 2, .own 3, .drop 3, .drop 2, .drop 1] .normal := by
  refine ⟨_, rfl, ?_⟩
  have h1 : Run (.seq (.seq (.seq .nop (.own 2)) (.seq (.own 3) .nop)) (.seq (.seq .nop (.seq .nop (.choose
      (.seq (.seq .nop (.seq (.seq (.drop 3) (.seq (.drop 2) .nop)) .ret)) .nop) (.seq .nop .nop)))) .nop))
      [.own 2, .own 3, .drop 3, .drop 2] .ret :=
    .seq (t := [.own 2, .own 3]) (.seq (t := [.own 2]) (.seq (t := []) .nop .own) (.seq (t := [.own 3]) .own .nop))
      (.seqExit (.seq (t := []) .nop (.seq (t := []) .nop (.left (.seqExit (.seq (t := []) .nop
        (.seq (t := [.drop 3, .drop 2]) (u := []) (.seq (t := [.drop 3]) .drop (.seq (t := [.drop 2]) .drop .nop)) .ret))
          (by simp))))) (by simp))
  exact .seq (t := [.own 1]) (.seq (t := [.own 1]) .own .nop)
    (.fn (t := [.own 2, .own 3, .drop 3, .drop 2]) (.seqExit h1 (by simp)) (by simp) (.seq (t := [.drop 1]) .drop .nop))

end Umka.Release.Props
