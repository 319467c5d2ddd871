import Verif.Model.Ufloat

/-
C59: obsolete forms of `ufloat()`; C57: conversions to pure numbers.
-/

namespace Unc

set_option autoImplicit false

variable {F : Type} [PyText F]

/-- `ufloat(n, s)` and `ufloat(n, s, tag)`, with numbers: the variable created, or `NegativeStdDev`. -/
theorem C59_modern (n s : F) (tag : Obj F) :
    ufloatCall (.num n) (.num s) tag =
      if PyText.isNegFinite s then .error .negativeStdDev else .ok ⟨n, s, tag⟩ := by
  unfold ufloatCall
  simp only [variableInit, Obj.toFloat, Obj.checkStd]
  split_ifs <;> rfl

theorem ufloatCall_tuple (a b : Obj F) (rest : List (Obj F)) (std tag : Obj F) :
    ufloatCall (.tuple (a :: b :: rest)) std tag = ufloatCall a b (tagArg std tag) := by
  conv_lhs => unfold ufloatCall
  simp only [variableInit, Obj.toFloat]

/-- **C59**: `ufloat((a, b))` is `ufloat(a, b)`, for all objects. -/
theorem C59_tuple (a b : Obj F) : ufloatCall (.tuple [a, b]) .none .none = ufloatCall a b .none :=
  ufloatCall_tuple a b [] .none .none

/-- **C59**: `ufloat((a, b), tag)` is `ufloat(a, b, tag)`, for all objects, with the tag as second argument
or as a keyword argument. -/
theorem C59_tuple_tag (a b tag : Obj F) :
    ufloatCall (.tuple [a, b]) tag .none = ufloatCall a b tag ∧
    ufloatCall (.tuple [a, b]) .none tag = ufloatCall a b tag := by
  refine ⟨ufloatCall_tuple a b [] tag .none, ?_⟩
  rw [ufloatCall_tuple]
  cases tag <;> rfl

/-- In particular, with numbers. -/
theorem C59_tuple_numbers (n s : F) (tag : Obj F) (hs : PyText.isNegFinite s = false) :
    ufloatCall (.tuple [.num n, .num s]) .none .none = .ok ⟨n, s, .none⟩ ∧
    ufloatCall (.tuple [.num n, .num s]) tag .none = .ok ⟨n, s, tag⟩ := by
  rw [C59_tuple, (C59_tuple_tag _ _ _).1, C59_modern, C59_modern, hs]
  exact ⟨rfl, rfl⟩

theorem ufloatCall_str (s : Str) {std : Obj F} (tag : Obj F) (hstd : std.checkStd = .error .typeError) :
    ufloatCall (.str s) std tag = fromstr s (tagArg std tag) := by
  conv_lhs => unfold ufloatCall
  simp only [variableInit, Obj.toFloat, hstd]
  cases PyText.ofStr (F := F) s <;> simp [orValueError]

/-- **C59**: `ufloat(string)` is `ufloat_fromstr(string)`, and `ufloat(string, tag)` is
`ufloat_fromstr(string, tag)` for a tag which is a string (second argument or keyword argument). -/
theorem C59_string (s t : Str) :
    ufloatCall (F := F) (.str s) .none .none = fromstr s .none ∧
    ufloatCall (F := F) (.str s) (.str t) .none = fromstr s (.str t) ∧
    ufloatCall (F := F) (.str s) .none (.str t) = fromstr s (.str t) :=
  ⟨ufloatCall_str s _ rfl, ufloatCall_str s _ rfl, ufloatCall_str s _ rfl⟩

/-- `ufloat_fromstr(string, tag)`: the numbers given by the parser, and the tag. -/
theorem C59_fromstr (s : Str) (tag : Obj F) :
    fromstr s tag = (ufloatFromstr (F := F) s).map fun p => ⟨p.1, p.2, tag⟩ := by
  unfold fromstr ufloatFromstr
  cases h : strToNumberWithUncert (F := F) (strip s) with
  | error e => rfl
  | ok p =>
    obtain ⟨n, u⟩ := p
    simp only [variableInit, Obj.toFloat, Obj.checkStd, bind, Except.bind]
    split_ifs <;> rfl

/-- **C59**: `ufloat(n)` with a number only raises an exception (`AttributeError`). -/
theorem C59_single_number (n : F) : ufloatCall (.num n) .none .none = .error .attributeError := by
  unfold ufloatCall
  simp [variableInit, Obj.toFloat, Obj.checkStd]

/-- `ufloat("1.23(4)")`, `ufloat("1.23(4)", "x")`, `ufloat((1, 2), "y")`, `ufloat((1, -2))`. -/
example :
    ((ufloatCall (F := FNum) (.str "1.23(4)".toList) .none .none).toOption.map fun v => (v.nom, v.std)) =
      some (.fin (123/100), .fin (4/100)) ∧
    ((ufloatCall (F := FNum) (.str "1.23(4)".toList) (.str "x".toList) .none).toOption.map
      fun v => (v.nom, v.std)) = some (.fin (123/100), .fin (4/100)) ∧
    ((ufloatCall (F := FNum) (.tuple [.num (.fin 1), .num (.fin 2)]) (.str "y".toList) .none).toOption.map
      fun v => (v.nom, v.std)) = some (.fin 1, .fin 2) ∧
    (ufloatCall (F := FNum) (.tuple [.num (.fin 1), .num (.fin (-2))]) .none .none).toOption.isNone = true := by
  decide +kernel

/-- With a number as second argument, a string is not parsed by `ufloat_fromstr()` if `float()` accepts
it: `ufloat("1.23", 0.1)` is 1.23±0.1. But if `float()` does not accept it, the number is silently used as
a tag: `ufloat("1.2(3)", 0.1)` is 1.2±0.3. -/
theorem C59_string_and_number (s : Str) (x : F) (hx : PyText.isNegFinite x = false) :
    ufloatCall (.str s) (.num x) .none =
      match PyText.ofStr s with
      | some n => .ok ⟨n, x, .none⟩
      | none => fromstr s (.num x) := by
  unfold ufloatCall
  simp only [variableInit, Obj.toFloat, Obj.checkStd, hx]
  cases PyText.ofStr (F := F) s <;> simp [orValueError, tagArg]

/-! ### Conversions -/

/-- **C57**, first part: `complex(x)`, `int(x)` and `float(x)` always raise a `TypeError`. -/
theorem C57_type_error_partial (cls name : String) (h : name ∈ ["complex", "int", "float"]) :
    ∃ msg, coerce cls name = some (.typeError, msg) := by
  simp only [List.mem_cons, List.not_mem_nil, or_false] at h
  rcases h with rfl | rfl | rfl <;> exact ⟨_, rfl⟩

/-- The message names the attempted conversion only for `float(x)`. -/
theorem C57_message_partial (cls : String) :
    coerce cls "float" = some (.typeError, "can't convert an affine function (" ++ cls ++ ") to float; use x.nominal_value") := by
  show some (PyErr.typeError, raiseError cls "float") = _
  unfold raiseError
  rw [String.append_assoc, String.append_assoc]
  rfl

/-- **C57** is false for the message: `int(x)` and `complex(x)` tell that the conversion is to `float`. -/
theorem C57_fails_message (cls : String) : coerce cls "int" = coerce cls "float" ∧ coerce cls "complex" = coerce cls "float" :=
  ⟨rfl, rfl⟩

/-- The hypotheses of `C59_tuple_numbers` and `C59_string_and_number`: `ufloat("2", 0.5)` and `ufloat("1.2(3)", 0.5)`. -/
example : PyText.isNegFinite (.fin (1 / 2) : FNum) = false ∧
    ((ufloatCall (F := FNum) (.str "2".toList) (.num (.fin (1 / 2))) .none).toOption.map fun v => (v.nom, v.std)) =
      some (.fin 2, .fin (1 / 2)) ∧
    ((ufloatCall (F := FNum) (.str "1.2(3)".toList) (.num (.fin (1 / 2))) .none).toOption.map fun v => (v.nom, v.std)) =
      some (.fin (12 / 10), .fin (3 / 10)) := by decide +kernel

/-- The hypothesis of `C57_type_error_partial`. -/
example : ∃ msg, coerce "Variable" "int" = some (.typeError, msg) := C57_type_error_partial _ _ (by decide)

end Unc
