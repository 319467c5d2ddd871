import Verif.Lemmas.PrintTag
import Verif.Props.C03_Reads
import Verif.Props.C49_Repr
import Verif.Model.FloatParse

/-
C81: printing and parsing inside programs.  `psees io cs c`: what the command `c` shows after the history `cs`, in which
quantities can be printed and texts parsed.
-/

set_option autoImplicit false
set_option linter.unusedSectionVars false

namespace Unc

section
variable {F : Type} [PyMath F] [PyText F]

/-- **C81**, format. `format(x, spec)` prints the nominal value and the standard deviation that `x` has at that time (after
all the operations and updates of the history): nothing else in the history matters. -/
theorem C81_format (io : TextIO F) (cs : List (PCmd F)) (x : Arg F) (spec : Str) (p : FmtParts) (D : VarId → Option F)
    (n s : F) (hspec : parseSpec spec = some p) (hD : psees io cs (.run (.derivatives x)) = .out (.dict D))
    (hn : psees io cs (.run (.nominal x)) = .out (.val (.flt n)))
    (hs : psees io cs (.run (.stdDev x)) = .out (.val (.flt s))) :
    psees io cs (.format x spec) = .ofText (io.ops.formatU (io.num n) (io.num s) spec) := by
  rw [psees_run] at hn hs hD
  rw [psees_format, POut.out.inj hn, POut.out.inj hs, hspec]
  have h := unc_of_derivatives (POut.out.inj hD)
  revert h
  generalize sees (cs.flatMap PCmd.plain) (.s x) = o
  intro h
  cases o <;> first | rfl | exact absurd rfl h

/-- **C81**, repr, without tag. -/
theorem C81_repr (io : TextIO F) (cs : List (PCmd F)) (x : Arg F) (D : VarId → Option F) (n s : F)
    (hD : psees io cs (.run (.derivatives x)) = .out (.dict D))
    (hn : psees io cs (.run (.nominal x)) = .out (.val (.flt n)))
    (hs : psees io cs (.run (.stdDev x)) = .out (.val (.flt s)))
    (ht : ∀ t, psees io cs (.run (.tag x)) ≠ .out (.tag (some t))) :
    psees io cs (.repr x) = .text (reprU io.repr PyFloat.truthy n s) := by
  simp only [psees_run, ne_eq, POut.out.injEq] at hn hs hD ht
  rw [psees_repr, hn, hs]
  have h := unc_of_derivatives hD
  revert h ht
  generalize sees (cs.flatMap PCmd.plain) (.s x) = o
  generalize sees (cs.flatMap PCmd.plain) (.tag x) = o'
  intro ht h
  cases o' with
  | tag t =>
    cases t with
    | none => cases o <;> first | rfl | exact absurd rfl h
    | some t => exact absurd rfl (ht t)
  | _ => cases o <;> first | rfl | exact absurd rfl h

/-- **C81**, repr of a variable with a tag. -/
theorem C81_repr_tag (io : TextIO F) (cs : List (PCmd F)) (x : Arg F) (D : VarId → Option F) (n s : F) (t : String)
    (hD : psees io cs (.run (.derivatives x)) = .out (.dict D))
    (hn : psees io cs (.run (.nominal x)) = .out (.val (.flt n)))
    (hs : psees io cs (.run (.stdDev x)) = .out (.val (.flt s)))
    (ht : psees io cs (.run (.tag x)) = .out (.tag (some t))) :
    psees io cs (.repr x) =
      .text ("< ".toList ++ t.toList ++ " = ".toList ++ reprU io.repr PyFloat.truthy n s ++ " >".toList) := by
  simp only [psees_run, POut.out.injEq] at hn hs hD ht
  rw [psees_repr, hn, hs, ht]
  have h := unc_of_derivatives hD
  revert h
  generalize sees (cs.flatMap PCmd.plain) (.s x) = o
  intro h
  cases o <;> first | rfl | exact absurd rfl h

/-- **C81**, the representation of a variable with a tag can never be parsed back: whatever the tag and the values,
`ufloat_fromstr()` raises `ValueError` (as for any text that starts with `<`). -/
theorem C81_tag_unreadable (ρ : FNum → F) (hρ : ∀ s, (PyText.ofStr s : Option F) = (pyFloat s).map ρ) (io : TextIO F)
    (cs ds : List (PCmd F)) (x : Arg F) (D : VarId → Option F) (n s : F) (t : String) (out : Str) (tag : Option String)
    (hD : psees io cs (.run (.derivatives x)) = .out (.dict D))
    (hn : psees io cs (.run (.nominal x)) = .out (.val (.flt n)))
    (hs : psees io cs (.run (.stdDev x)) = .out (.val (.flt s)))
    (ht : psees io cs (.run (.tag x)) = .out (.tag (some t)))
    (hout : psees io cs (.repr x) = .text out) :
    psees io ds (.fromstr out tag) = .out (.err .valueError) := by
  rw [C81_repr_tag io cs x D n s t hD hn hs ht] at hout
  rw [← POut.text.inj hout]
  have h := strToNumber_lt hρ (strip_tagText t (reprU io.repr PyFloat.truthy n s))
  unfold tagText at h
  simp only [psees, Machine.pstep, h]

/-- **C81**, parsing. `ufloat_fromstr(text, tag)` is in every respect `ufloat(n, s, tag)`, where `n` and `s` are the numbers
found in the text: same result or exception, and same consequences in the rest of the program. -/
theorem C81_fromstr (io : TextIO F) (cs ds : List (PCmd F)) (text : Str) (tag : Option String) (n s : F) (c : PCmd F)
    (h : strToNumberWithUncert (strip text) = .ok (n, s)) :
    psees io cs (.fromstr text tag) = psees io cs (.run (.ufloat n s tag)) ∧
    psees io (cs ++ .fromstr text tag :: ds) c = psees io (cs ++ .run (.ufloat n s tag) :: ds) c := by
  have hp : (PCmd.fromstr text tag : PCmd F).plain = (PCmd.run (.ufloat n s tag) : PCmd F).plain := by
    simp only [PCmd.plain, h]
  constructor
  · simp only [psees, Machine.pstep, h]
  · simp only [psees, pafter_eq, List.flatMap_append, List.flatMap_cons, hp]

/-- **C81**, parsing an invalid text: the exception is raised, and no object changes. -/
theorem C81_fromstr_error (io : TextIO F) (cs : List (PCmd F)) (text : Str) (tag : Option String) (e : PyErr)
    (h : strToNumberWithUncert (F := F) (strip text) = .error e) :
    psees io cs (.fromstr text tag) = .out (.err e) ∧
    (pafter io (cs ++ [.fromstr text tag])).w = (pafter io cs).w := by
  constructor
  · simp only [psees, Machine.pstep, h]
  · have h1 : pafter io (cs ++ [.fromstr text tag]) = ((pafter io cs).pstep io (.fromstr text tag)).1 := by
      rw [pafter_eq, pafter_eq, List.flatMap_append, after_append, pstep_state]
      simp
    rw [h1]
    simp only [Machine.pstep, h]

end

section
variable {F : Type} [PyMath F] [ExactLin F] [PyText F]

/-- **C81**, printing changes nothing. After any history `cs`, two ways of going on that differ only by what they print or
read (`peffects as = peffects bs`) show the same things: a program can print quantities, or not, whenever it wants (here
without copies in `as` and `bs`). -/
theorem C81_silent (io : TextIO F) (cs as bs : List (PCmd F)) (hab : peffects as = peffects bs)
    (hc : ∀ c ∈ peffects as, c.isCopy = false) (c : PCmd F) (hcc : c.isCopy = false) :
    psees io (cs ++ as) c = psees io (cs ++ bs) c := by
  have hsame : ∀ c : Cmd F, c.isCopy = false →
      sees ((cs ++ as).flatMap PCmd.plain) c = sees ((cs ++ bs).flatMap PCmd.plain) c := by
    intro c hc'
    rw [List.flatMap_append, List.flatMap_append]
    refine C03_reads _ _ _ ?_ ?_ c hc'
    · rw [effects_plain, effects_plain bs, hab]
    · intro d hd
      rw [effects_plain] at hd
      have hd' := (List.mem_filter.1 hd).1
      obtain ⟨a, ha, hda⟩ := List.mem_flatMap.1 hd'
      exact plain_isCopy (hc a ha) d hda
  cases c with
  | run c =>
    rw [psees_run, psees_run, hsame c]
    cases c <;> first | rfl | cases hcc
  | format x spec =>
    rw [psees_format, psees_format, hsame _ rfl, hsame _ rfl, hsame _ rfl]
  | repr x =>
    rw [psees_repr, psees_repr, hsame _ rfl, hsame _ rfl, hsame _ rfl, hsame _ rfl]
  | fromstr s tag =>
    cases h : strToNumberWithUncert (F := F) (strip s) with
    | error e =>
      rw [(C81_fromstr_error io _ s tag e h).1, (C81_fromstr_error io _ s tag e h).1]
    | ok p =>
      rw [(C81_fromstr io (cs ++ as) [] s tag p.1 p.2 (.repr (.ref 0)) h).1, (C81_fromstr io (cs ++ bs) [] s tag p.1 p.2 (.repr (.ref 0)) h).1,
        psees_run, psees_run, hsame _ rfl]

/-- **C81**, printing changes nothing that is printed later, with copies. -/
theorem C81_silent_copies (io : TextIO F) (cs as bs : List (PCmd F)) (hab : peffects as = peffects bs)
    (hv : ∀ x v, .run (.variable x v) ∉ peffects as) (x : Arg F) (spec : Str) :
    psees io (cs ++ as) (.format x spec) = psees io (cs ++ bs) (.format x spec) ∧
    psees io (cs ++ as) (.repr x) = psees io (cs ++ bs) (.repr x) := by
  obtain ⟨ρ, -, -, hsame⟩ := C03_reads_and_copies (cs.flatMap PCmd.plain) (as.flatMap PCmd.plain) (bs.flatMap PCmd.plain)
    (by rw [effects_plain, effects_plain bs, hab]) (by
      intro d hd
      rw [effects_plain] at hd
      obtain ⟨a, ha, hda⟩ := List.mem_flatMap.1 (List.mem_filter.1 hd).1
      exact plain_isVariable (fun x v h => hv x v (h ▸ ha)) d hda)
  rw [psees_format, psees_format, psees_repr, psees_repr]
  simp only [List.flatMap_append]
  have h1 := (hsame (.s x) rfl).cases
  have h2 := (hsame (.stdDev x) rfl).cases
  have h3 := (hsame (.nominal x) rfl).cases
  have h4 := (hsame (.tag x) rfl).cases
  revert h1 h2 h3 h4
  generalize sees (cs.flatMap PCmd.plain ++ as.flatMap PCmd.plain) (.s x) = a1
  generalize sees (cs.flatMap PCmd.plain ++ as.flatMap PCmd.plain) (.stdDev x) = a2
  generalize sees (cs.flatMap PCmd.plain ++ as.flatMap PCmd.plain) (.nominal x) = a3
  generalize sees (cs.flatMap PCmd.plain ++ as.flatMap PCmd.plain) (.tag x) = a4
  generalize sees (cs.flatMap PCmd.plain ++ bs.flatMap PCmd.plain) (.s x) = b1
  generalize sees (cs.flatMap PCmd.plain ++ bs.flatMap PCmd.plain) (.stdDev x) = b2
  generalize sees (cs.flatMap PCmd.plain ++ bs.flatMap PCmd.plain) (.nominal x) = b3
  generalize sees (cs.flatMap PCmd.plain ++ bs.flatMap PCmd.plain) (.tag x) = b4
  intro h1 h2 h3 h4
  rcases h2 with rfl | ⟨d2, e2, rfl, rfl⟩ <;> rcases h3 with rfl | ⟨d3, e3, rfl, rfl⟩ <;>
    rcases h4 with rfl | ⟨d4, e4, rfl, rfl⟩ <;> rcases h1 with rfl | ⟨d1, e1, rfl, rfl⟩ <;>
    first
      | exact ⟨rfl, rfl⟩
      | (cases a2 <;> first | exact ⟨rfl, rfl⟩ | (rename_i v; cases v <;> exact ⟨rfl, rfl⟩))

/-- **C81**, printing and parsing lose the correlations. When the representation of a quantity (without tag) is parsed, the
new quantity has exactly the same nominal value and standard deviation, but it is a new independent variable `v`: nothing that
existed before depends on it. -/
theorem C81_reread (io : TextIO F) (cs : List (PCmd F)) (x : Arg F) (D : VarId → Option F) (n s zero : F) (out : Str)
    (tag : Option String)
    (hD : psees io cs (.run (.derivatives x)) = .out (.dict D))
    (hn : psees io cs (.run (.nominal x)) = .out (.val (.flt n)))
    (hs : psees io cs (.run (.stdDev x)) = .out (.val (.flt s)))
    (ht : ∀ t, psees io cs (.run (.tag x)) ≠ .out (.tag (some t)))
    (hout : psees io cs (.repr x) = .text out)
    (hrn : ReprOk io.repr n) (hrs : PyFloat.truthy s = true → ReprOk io.repr s)
    (hz : PyFloat.truthy s = false → s = zero) (h0 : PyText.ofStr ['0'] = some zero)
    (h01 : PyText.mul zero PyText.one = zero) (hpos : PyText.isNegFinite s = false)
    (hpos' : (PyFloat.ltb s 0 && !PyFloat.isInf s) = false) :
    psees io cs (.fromstr out tag) = .out .done ∧
    psees io (cs ++ [.fromstr out tag]) (.run (.nominal (pnext io cs))) = .out (.val (.flt n)) ∧
    psees io (cs ++ [.fromstr out tag]) (.run (.stdDev (pnext io cs))) = .out (.val (.flt s)) ∧
    ∃ v, psees io (cs ++ [.fromstr out tag]) (.run (.derivatives (pnext io cs))) =
        .out (.dict fun w => if w = v then some 1 else none) ∧
      ∀ y Dy, psees io cs (.run (.derivatives y)) = .out (.dict Dy) →
        psees io (cs ++ [.fromstr out tag]) (.run (.derivatives y)) = .out (.dict Dy) ∧ Dy v = none := by
  rw [C81_repr io cs x D n s hD hn hs ht] at hout
  have hp := C49_repr_round_trip io.repr PyFloat.truthy n s zero hrn hrs hz h0 h01 hpos
  rw [POut.text.inj hout, fromstrG_eq] at hp
  have hp' : strToNumberWithUncert (F := F) (strip out) = .ok (n, s) := by
    cases h : strToNumberWithUncert (F := F) (strip out) with
    | error e => rw [h] at hp; cases hp
    | ok q =>
      rw [h] at hp
      change checkedG q = _ at hp
      unfold checkedG at hp
      split at hp
      · cases hp
      · exact hp
  have hconv : ∀ c, psees io (cs ++ [.fromstr out tag]) (.run c) = .out (sees (cs.flatMap PCmd.plain ++ [.ufloat n s tag]) c) := by
    intro c
    rw [(C81_fromstr io cs [] out tag n s (.run c) hp').2, psees_run, List.flatMap_append]
    rfl
  obtain ⟨st, hst⟩ := Reaches.exists (cs.flatMap PCmd.plain)
  obtain ⟨hd, hr⟩ := hst.ufloat (n := n) tag (show specBadStd s = false from hpos')
  have hev := hst.next_eval (vars := st.vars ++ [⟨n, s, tag⟩]) (fns := st.fns)
    (q := ⟨n, Lin.single st.vars.length, some st.vars.length⟩) (l := [])
  rw [pnext_eq]
  refine ⟨?_, ?_, ?_, st.vars.length, ?_, ?_⟩
  · rw [(C81_fromstr io cs [] out tag n s (.repr x) hp').1, psees_run, hd]
  · rw [hconv, (hr.read (c := .nominal (next (cs.flatMap PCmd.plain))) rfl).1]
    simp only [SState.step, seval_of_sevalUnc hev, SVal.nominal]
  · rw [hconv, (hr.read (c := .stdDev (next (cs.flatMap PCmd.plain))) rfl).1]
    simp only [SState.step, seval_of_sevalUnc hev, specStdDev]
    simp [PyRes.out]
  · rw [hconv, (hr.read (c := .derivatives (next (cs.flatMap PCmd.plain))) rfl).1]
    simp only [SState.step, SState.read, hev]
    rfl
  · intro y Dy hy
    rw [psees_run] at hy
    obtain ⟨q, hq, rfl⟩ := hst.derivatives (POut.out.inj hy)
    constructor
    · rw [hconv, (hr.read (c := .derivatives y) rfl).1]
      simp only [SState.step, SState.read]
      have : y.sevalUnc (st.env ++ [some (.unc ⟨n, Lin.single st.vars.length, some st.vars.length⟩)]) = some q := by
        simp only [Arg.sevalUnc, seval_append (seval_of_sevalUnc hq)]
      simp only [this]
    · cases hg : q.grad st.vars.length with
      | none => rfl
      | some d => exact absurd (hst.wf.keys q (sevalUnc_mem hq) _ _ hg) (Nat.lt_irrefl _)

end

/-! ### Examples -/

/-- Integers as floats of the parser, with rounding (only for the examples). -/
def znOfNum : FNum → ZN
  | .fin q => .fin q.floor
  | .nan => .nan
  | .inf _ => .nan

instance : PyText ZN where
  ofStr s := (pyFloat s).map znOfNum
  pow10 n := if n < 0 then .error .overflowError else .ok (.fin (10 ^ n.toNat))
  mul x y := x * y
  one := 1
  divInt n x := PyFloat.truediv (.fin n) x
  isNegFinite x := PyFloat.ltb x 0

def znNum : ZN → FNum
  | .fin x => .fin x
  | .nan => .nan

def znIO : TextIO ZN := { ops := FlOps.exact, num := znNum, repr := fun x => reprFloat (znNum x) }

/-- `x = ufloat(3, 1)`, `y = ufloat(5, 2, "width")`, `z = x*y`, printed, then `y.std_dev = 4`. -/
def exC81 : List (PCmd ZN) :=
  [.run (.ufloat (.fin 3) (.fin 1) none), .run (.ufloat (.fin 5) (.fin 2) (some "width")),
   .run (.binop .mul (.ref 0) (.ref 1)), .format (.ref 2) [], .repr (.ref 1), .run (.setStd (.ref 1) (.fin 0))]

/-- The same program without printing. -/
def exC81' : List (PCmd ZN) :=
  [.run (.ufloat (.fin 3) (.fin 1) none), .run (.ufloat (.fin 5) (.fin 2) (some "width")),
   .run (.binop .mul (.ref 0) (.ref 1)), .run (.setStd (.ref 1) (.fin 0))]

/-- The text shown. -/
def POut.shown {F : Type} : POut F → Option Str
  | .text s => some s
  | .out _ => none

def POut.float {F : Type} : POut F → Option F
  | .out (.val (.flt x)) => some x
  | _ => none

example : peffects exC81 = peffects exC81' ∧ (∀ c ∈ peffects exC81, c.isCopy = false) := by
  refine ⟨rfl, ?_⟩
  intro c hc
  simp only [exC81, peffects, List.filter, PCmd.isRead, Cmd.isRead, Bool.not_false, Bool.not_true] at hc
  simp only [List.mem_cons, List.not_mem_nil, or_false] at hc
  rcases hc with rfl | rfl | rfl | rfl <;> rfl

/-- What is printed before and after the update, and the representations. -/
example : (psees znIO (exC81.take 3) (.format (.ref 2) [])).shown = some "15+/-7".toList ∧
    (psees znIO exC81 (.format (.ref 2) [])).shown = some "15+/-5".toList ∧
    (psees znIO exC81 (.repr (.ref 2))).shown = some "15.0+/-5.0".toList ∧
    (psees znIO exC81 (.repr (.ref 1))).shown = some "< width = 5.0+/-0 >".toList := by decide +kernel

/-- The hypotheses of the theorems are met by `z`. -/
example : (∃ D, psees znIO exC81 (.run (.derivatives (.ref 2))) = .out (.dict D)) ∧
    psees znIO exC81 (.run (.nominal (.ref 2))) = .out (.val (.flt (.fin 15))) ∧
    psees znIO exC81 (.run (.stdDev (.ref 2))) = .out (.val (.flt (.fin 5))) ∧
    psees znIO exC81 (.run (.tag (.ref 2))) = .out (.err .attributeError) ∧
    psees znIO exC81 (.run (.tag (.ref 1))) = .out (.tag (some "width")) := ⟨⟨_, rfl⟩, rfl, rfl, rfl, rfl⟩

example : ReprOk znIO.repr (.fin 15) ∧ ReprOk znIO.repr (.fin 5) := by
  have : ∀ v ∈ [(.fin 15 : ZN), .fin 5], PyText.ofStr (znIO.repr v) = some v ∧
      (∀ c ∈ znIO.repr v, c ∈ "0123456789.+-einfa".toList) ∧ PyText.mul v PyText.one = v := by decide +kernel
  exact ⟨⟨(this _ (by simp)).1, (this _ (by simp)).2.1, (this _ (by simp)).2.2⟩,
    ⟨(this _ (by simp)).1, (this _ (by simp)).2.1, (this _ (by simp)).2.2⟩⟩

/-- Parsing of a text, and of an invalid one. -/
example : strToNumberWithUncert (F := ZN) (strip " 15+/-5 ".toList) = .ok (.fin 15, .fin 5) ∧
    strToNumberWithUncert (F := ZN) (strip "< width = 5.0+/-0 >".toList) = .error .valueError := by decide +kernel

/-- The hypothesis of `C81_tag_unreadable` is met by the floats of this example, by those of C77, and by the exact numbers
of C45. -/
example (f : FlOps) : (∀ s, (PyText.ofStr s : Option ZN) = (pyFloat s).map znOfNum) ∧
    (∀ s, (PyText.ofStr s : Option (Fl f)) = (pyFloat s).map f.nearest) ∧
    ∀ s, (PyText.ofStr s : Option FNum) = (pyFloat s).map id := ⟨fun _ => rfl, fun _ => rfl, fun _ => by simp [PyText.ofStr]⟩

end Unc
