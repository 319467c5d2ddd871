import Verif.Model.Arrays
import Verif.Spec.Observe
import Verif.Py.OZ

/-
C52, in any arithmetic: what `nominal_values()` and `std_devs()` give, including exceptions, is what a program gets by reading the
elements one by one, in order.
-/

namespace Unc

set_option autoImplicit false

variable {F : Type} [PyMath F]

/-- The floats that a program that reads values one after the other gets; it stops at the first exception. Converting
to a float what is not a float raises TypeError. -/
def readAll : List (Out F) → PyRes (List F)
  | [] => .ok []
  | .val (.flt x) :: os => (readAll os).map (x :: ·)
  | .err e :: _ => .error e
  | _ :: _ => .error .typeError

theorem run_std_eval {m : Machine F} {x : Arg F} {v : Val F} (h : x.eval m.env = some v) :
    m.step (.stdDev x) = (⟨(m.w.stdDevOf v).1, m.env⟩,
      match (m.w.stdDevOf v).2 with | .error e => .err e | .ok s => .val (.flt s)) := by
  simp only [Machine.step, h]
  rcases m.w.stdDevOf v with ⟨w, e | s⟩ <;> rfl

theorem evalArgs_cons_some {α β : Type} {ev : α → Option β} {a : α} {l : List α} {vs : List β} (h : evalArgs ev (a :: l) = some vs) :
    ∃ v ws, ev a = some v ∧ evalArgs ev l = some ws ∧ vs = v :: ws := by
  simp only [evalArgs] at h
  cases ha : ev a with
  | none => rw [ha] at h; cases h
  | some v =>
    rw [ha] at h
    cases hl : evalArgs ev l with
    | none => rw [hl] at h; cases h
    | some ws => rw [hl] at h; cases h; exact ⟨v, ws, rfl, rfl, rfl⟩

/-- One row, followed by other reads. -/
theorem stdDevList_reads (m : Machine F) {row : List (Arg F)} {vals : List (Val F)} (h : evalArgs (Arg.eval m.env) row = some vals)
    (rest : List (Cmd F)) :
    readAll (m.run (row.map Cmd.stdDev ++ rest)).2 =
      match (m.w.stdDevList vals).2 with
      | .error e => .error e
      | .ok ss => (readAll ((⟨(m.w.stdDevList vals).1, m.env⟩ : Machine F).run rest).2).map (ss ++ ·) := by
  induction row generalizing m vals with
  | nil =>
    cases h
    simp only [List.map_nil, List.nil_append, World.stdDevList]
    cases readAll (m.run rest).2 <;> simp [Except.map]
  | cons x row ih =>
    obtain ⟨v, ws, h1, h2, rfl⟩ := evalArgs_cons_some h
    simp only [List.map_cons, List.cons_append, Machine.run, run_std_eval h1, World.stdDevList]
    rcases hs : m.w.stdDevOf v with ⟨w, e | s⟩
    · simp [readAll]
    · simp only [readAll]
      rw [ih ⟨w, m.env⟩ h2]
      simp only
      rcases w.stdDevList ws with ⟨w2, e | ss⟩
      · rfl
      · simp only
        cases readAll ((⟨w2, m.env⟩ : Machine F).run rest).2 <;> simp [Except.map]

theorem stdDevs_reads (m : Machine F) {A : List (List (Arg F))} {vals : List (List (Val F))} (h : evalArray m.env A = some vals) :
    readAll (m.run (A.flatten.map Cmd.stdDev)).2 = (m.w.stdDevs vals).2.map List.flatten := by
  induction A generalizing m vals with
  | nil =>
    cases h
    rfl
  | cons row A ih =>
    obtain ⟨v, ws, h1, h2, rfl⟩ := evalArgs_cons_some h
    simp only [List.flatten_cons, List.map_append]
    rw [stdDevList_reads m h1]
    simp only [World.stdDevs]
    rcases hs : m.w.stdDevList v with ⟨w, e | s⟩
    · rfl
    · simp only
      rw [ih ⟨w, m.env⟩ h2]
      simp only
      rcases w.stdDevs ws with ⟨w2, e | ss⟩ <;> simp [Except.map]

theorem stdDevList_length (w : World F) (vals : List (Val F)) {ss : List F} (h : (w.stdDevList vals).2 = .ok ss) :
    ss.length = vals.length := by
  induction vals generalizing w ss with
  | nil => cases h; rfl
  | cons v vals ih =>
    simp only [World.stdDevList] at h
    rcases hs : w.stdDevOf v with ⟨w1, e | s⟩
    · rw [hs] at h; cases h
    · rw [hs] at h
      simp only at h
      rcases hl : w1.stdDevList vals with ⟨w2, e | l⟩
      · rw [hl] at h; cases h
      · rw [hl] at h
        cases h
        simp [ih w1 (by rw [hl])]

theorem stdDevs_shape (w : World F) (vals : List (List (Val F))) {ss : List (List F)} (h : (w.stdDevs vals).2 = .ok ss) :
    ss.map List.length = vals.map List.length := by
  induction vals generalizing w ss with
  | nil => cases h; rfl
  | cons v vals ih =>
    simp only [World.stdDevs] at h
    rcases hs : w.stdDevList v with ⟨w1, e | s⟩
    · rw [hs] at h; cases h
    · rw [hs] at h
      simp only at h
      rcases hl : w1.stdDevs vals with ⟨w2, e | l⟩
      · rw [hl] at h; cases h
      · rw [hl] at h
        cases h
        simp [ih w1 (by rw [hl]), stdDevList_length w v (by rw [hs])]

theorem evalArgs_length' {α β : Type} {ev : α → Option β} {l : List α} {vs : List β} (h : evalArgs ev l = some vs) :
    vs.length = l.length := by
  induction l generalizing vs with
  | nil => cases h; rfl
  | cons a l ih =>
    obtain ⟨v, ws, -, h2, rfl⟩ := evalArgs_cons_some h
    simp [ih h2]

theorem evalArray_shape {env : List (Option (Val F))} {A : List (List (Arg F))} {vals : List (List (Val F))}
    (h : evalArray env A = some vals) : vals.map List.length = A.map List.length := by
  induction A generalizing vals with
  | nil => cases h; rfl
  | cons a l ih =>
    obtain ⟨v, ws, h1, h2, rfl⟩ := evalArgs_cons_some h
    simp [ih h2, evalArgs_length' h1]

theorem evalArray_exists (cs : List (Cmd F)) (A : List (List (Arg F)))
    (hA : ∀ row ∈ A, ∀ x ∈ row, sees cs (.nominal x) ≠ .invalid) : ∃ vals, evalArray (after cs).env A = some vals := by
  have h1 : ∀ row : List (Arg F), (∀ x ∈ row, sees cs (.nominal x) ≠ .invalid) →
      ∃ vs, evalArgs (Arg.eval (after cs).env) row = some vs := by
    intro row hrow
    induction row with
    | nil => exact ⟨[], rfl⟩
    | cons x row ih =>
      obtain ⟨vs, hvs⟩ := ih (fun y hy => hrow y (List.mem_cons_of_mem _ hy))
      have hx := hrow x (by simp)
      unfold sees at hx
      simp only [Machine.step] at hx
      cases hv : x.eval (after cs).env with
      | none => rw [hv] at hx; exact absurd rfl hx
      | some v => exact ⟨v :: vs, by simp [evalArgs, hv, hvs]⟩
  clear * - hA h1
  induction A with
  | nil => exact ⟨[], rfl⟩
  | cons row A ih =>
    obtain ⟨vals, h2⟩ := ih (fun r hr => hA r (List.mem_cons_of_mem _ hr))
    obtain ⟨vs, h3⟩ := h1 row (hA row (by simp))
    exact ⟨vs :: vals, by unfold evalArray at h2 ⊢; simp [evalArgs, h2, h3]⟩

/-- **C52**, in any arithmetic and after any history: `std_devs(A)` gives, with the shape of `A`, what the program would get by reading
the standard deviations of the elements one after the other; in particular, it raises the exception of the first element that has
no standard deviation. -/
theorem C52_std_devs_reads (cs : List (Cmd F)) (A : List (List (Arg F)))
    (hA : ∀ row ∈ A, ∀ x ∈ row, sees cs (.nominal x) ≠ .invalid) :
    ((after cs).stdDevs A).2.map List.flatten = readAll ((after cs).run (A.flatten.map Cmd.stdDev)).2 ∧
    ∀ ss, ((after cs).stdDevs A).2 = .ok ss → ss.map List.length = A.map List.length := by
  obtain ⟨vals, hv⟩ := evalArray_exists cs A hA
  have he : ((after cs).stdDevs A).2 = ((after cs).w.stdDevs vals).2 := by simp [Machine.stdDevs, hv]
  rw [he]
  exact ⟨(stdDevs_reads (after cs) hv).symm, fun ss hs => (stdDevs_shape _ _ hs).trans (evalArray_shape hv)⟩

theorem nominals_reads (m : Machine F) {row : List (Arg F)} {vals : List (Val F)} (h : evalArgs (Arg.eval m.env) row = some vals)
    (rest : List (Cmd F)) :
    readAll (m.run (row.map Cmd.nominal ++ rest)).2 =
      match mapRes' Val.floatNominal vals with
      | .error e => .error e
      | .ok ss => (readAll (m.run rest).2).map (ss ++ ·) := by
  induction row generalizing vals with
  | nil =>
    cases h
    simp only [List.map_nil, List.nil_append, mapRes']
    cases readAll (m.run rest).2 <;> simp [Except.map]
  | cons x row ih =>
    obtain ⟨v, ws, h1, h2, rfl⟩ := evalArgs_cons_some h
    have hstep : m.step (.nominal x) = (m, .val v.nominal) := by simp only [Machine.step, h1]
    simp only [List.map_cons, List.cons_append, Machine.run, hstep, mapRes']
    have key : ∀ y : F, v.nominal = .flt y → v.floatNominal = .ok y := by
      intro y hy
      cases v with
      | unc u => cases hy; rfl
      | plain p => cases hy; rfl
    have key' : (∀ y : F, v.nominal ≠ .flt y) → v.floatNominal = .error .typeError := by
      intro hy
      cases v with
      | unc u => exact absurd rfl (hy u.nom)
      | plain p =>
        cases p with
        | flt y => exact absurd rfl (hy y)
        | _ => rfl
    cases hn : v.nominal with
    | flt y =>
      simp only [readAll, key y hn]
      rw [ih h2]
      cases mapRes' Val.floatNominal ws with
      | error e => rfl
      | ok ss => simp only; cases readAll (m.run rest).2 <;> simp [Except.map]
    | _ => simp only [readAll, key' (by intro y hy; rw [hn] at hy; cases hy)]

/-- **C52**, in any arithmetic and after any history: `nominal_values(A)` gives, with the shape of `A`, what the program would get by
reading the nominal values of the elements one after the other, converted to floats; it raises TypeError if one of them cannot be
converted. -/
theorem C52_nominal_values_reads (cs : List (Cmd F)) (A : List (List (Arg F)))
    (hA : ∀ row ∈ A, ∀ x ∈ row, sees cs (.nominal x) ≠ .invalid) :
    ((after cs).nominalValues A).map List.flatten = readAll ((after cs).run (A.flatten.map Cmd.nominal)).2 ∧
    ∀ ss, (after cs).nominalValues A = .ok ss → ss.map List.length = A.map List.length := by
  obtain ⟨vals, hv⟩ := evalArray_exists cs A hA
  have he : (after cs).nominalValues A = nominalValues vals := by simp [Machine.nominalValues, hv]
  rw [he, ← evalArray_shape hv]
  clear he hA
  constructor
  · induction A generalizing vals with
    | nil => cases hv; rfl
    | cons row A ih =>
      obtain ⟨v, ws, h1, h2, rfl⟩ := evalArgs_cons_some hv
      simp only [List.flatten_cons, List.map_append]
      rw [nominals_reads _ h1, ← ih ws h2]
      simp only [nominalValues, mapRes']
      cases mapRes' Val.floatNominal v with
      | error e => rfl
      | ok l => simp only; cases mapRes' (mapRes' Val.floatNominal) ws <;> simp [Except.map]
  · have hl : ∀ (l : List (Val F)) ss, mapRes' Val.floatNominal l = .ok ss → ss.length = l.length := by
      intro l
      induction l with
      | nil => intro ss h; cases h; rfl
      | cons x l ih =>
        intro ss h
        simp only [mapRes'] at h
        cases hx : x.floatNominal with
        | error e => rw [hx] at h; cases h
        | ok y =>
          rw [hx] at h
          cases hr : mapRes' Val.floatNominal l with
          | error e => rw [hr] at h; cases h
          | ok r => rw [hr] at h; cases h; simp [ih r hr]
    clear hv
    induction vals with
    | nil => intro ss h; cases h; rfl
    | cons x l ih =>
      intro ss h
      simp only [nominalValues, mapRes'] at h
      cases hx : mapRes' Val.floatNominal x with
      | error e => rw [hx] at h; cases h
      | ok y =>
        rw [hx] at h
        cases hr : mapRes' (mapRes' Val.floatNominal) l with
        | error e => rw [hr] at h; cases h
        | ok r => rw [hr] at h; cases h; simp [ih r hr, hl x y hx]

/-- `y = x*1e200`, with an arithmetic where squares overflow: `std_devs([[x], [y, z]])` raises the exception of `y`. -/
example :
    let cs : List (Cmd OZ) := [.ufloat (ZN.fin 1) (ZN.fin 1) none, .binop .mul (.ref 0) (.const (.flt (ZN.fin (10 ^ 200))))]
    (((after cs).stdDevs [[.ref 0], [.ref 1, .ref 0]]).2.toOption.isNone) = true ∧
    (((after cs).stdDevs [[.ref 0], [.ref 0]]).2.toOption) = some [[ZN.fin 1], [ZN.fin 1]] := by
  constructor
  · decide +kernel
  · rfl

end Unc
