import Verif.Model.Fixers

/-
Valid Python programs, as far as the code updates are concerned (C60): an assignment is a statement, not an expression.
-/

namespace Unc

set_option autoImplicit false

mutual
/-- The expression is valid in a program. `statement`: it is in the place of a statement; `block c i`: the part number `i` of the
syntax `.other c` is in the place of a statement (lines of a program, parts of `if`, `for`, `def`, but not the parts of operators,
`lambda`, list comprehensions, right-hand sides of assignments...). -/
def Ex.valid (block : Nat → Nat → Bool) (statement : Bool) : Ex → Bool
  | .name _ => true
  | .str _ => true
  | .tuple l => Ex.validList block (fun _ => false) l
  | .attr e _ => e.valid block false
  | .call f _ args => f.valid block false && Ex.validList block (fun _ => false) args
  | .trail e _ l => e.valid block false && Ex.validList block (fun _ => false) l
  | .assign e _ x => statement && e.valid block false && x.valid block false
  | .assign2 e _ _ x => statement && e.valid block false && x.valid block false
  | .other c l => Ex.validList block (block c) l

/-- Idem for a list of expressions; `statement i`: the expression number `i` is in the place of a statement. -/
def Ex.validList (block : Nat → Nat → Bool) (statement : Nat → Bool) : List Ex → Bool
  | [] => true
  | e :: l => e.valid block (statement 0) && Ex.validList block (fun i => statement (i + 1)) l
end

mutual
/-- The calls `e.set_std_dev(...)` are in the place of statements. -/
def Ex.setsAreStatements (block : Nat → Nat → Bool) (statement : Bool) : Ex → Prop
  | .name _ => True
  | .str _ => True
  | .tuple l => Ex.setsAreStatementsList block (fun _ => false) l
  | .attr e _ => e.setsAreStatements block false
  | .call f _ args => f.setsAreStatements block false ∧ Ex.setsAreStatementsList block (fun _ => false) args ∧
      ((∃ e, f = .attr e "set_std_dev") → statement = true)
  | .trail e _ l => e.setsAreStatements block false ∧ Ex.setsAreStatementsList block (fun _ => false) l
  | .assign e _ x => e.setsAreStatements block false ∧ x.setsAreStatements block false
  | .assign2 e _ _ x => e.setsAreStatements block false ∧ x.setsAreStatements block false
  | .other c l => Ex.setsAreStatementsList block (block c) l

/-- Idem for a list of expressions. -/
def Ex.setsAreStatementsList (block : Nat → Nat → Bool) (statement : Nat → Bool) : List Ex → Prop
  | [] => True
  | e :: l => e.setsAreStatements block (statement 0) ∧ Ex.setsAreStatementsList block (fun i => statement (i + 1)) l
end

end Unc
