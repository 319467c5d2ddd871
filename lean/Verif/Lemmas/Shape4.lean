import Verif.Lemmas.Shape3
import Verif.Spec.Observe

/-
The invariant `Shape` for all the commands, and nominal values compared to a program that uses plain
floats.
-/

namespace Unc

set_option linter.unusedSectionVars false
set_option autoImplicit false

variable {F : Type} [PyMath F]

/-- Number of values bound by a command. -/
def Cmd.arity : Cmd F → Nat
  | .ufloat _ _ _ | .affine _ _ | .call _ _ _ | .unop _ _ | .binop _ _ _ | .ldexp _ _ | .lcst _ _ _ | .copy _ | .deepcopy _
  | .variable _ _ => 1
  | .modf _ => 2
  | .pickle xs => xs.length
  | _ => 0

structure MShape (m : Machine F) : Prop where
  shape : Shape m.w
  ops : HasOps m.w
  env : ∀ v, some v ∈ m.env → v.Valid m.w

/-- Each value of the machine has the nominal value calculated with plain floats. -/
structure NomRel (m : Machine F) (p : Plain F) : Prop where
  fns : p.fns = m.w.wraps.map Wrapped.df
  len : p.env.length = m.env.length
  env : ∀ (k : Nat) (v : Val F), m.env[k]? = some (some v) → p.env[k]? = some (some v.nominal)

structure StepOK (m : Machine F) (c : Cmd F) (m' : Machine F) (o : Out F) : Prop where
  shape : MShape m'
  fns : m'.w.wraps.map Wrapped.df = m.w.wraps.map Wrapped.df ++ c.defs
  env : ∃ l, m'.env = m.env ++ l ∧ l.length = c.arity
  read : c.isRead = true → m'.env = m.env ∧ m'.w.vars = m.w.vars ∧ o ≠ .err .outOfFuel
  plain : c.isVariable = false → ∀ p, NomRel m p → NomRel m' (p.step c)

/-! ### Arguments -/

theorem MShape.eval {m : Machine F} (h : MShape m) {x : Arg F} {v : Val F}
    (hx : x.eval m.env = some v) : v.Valid m.w := by
  cases x with
  | ref k =>
    simp only [Arg.eval] at hx
    cases hg : m.env[k]? with
    | none => rw [hg] at hx; cases hx
    | some o =>
      rw [hg] at hx
      simp only [Option.join_some] at hx
      subst hx
      exact h.env v (List.mem_of_getElem? hg)
  | const c => cases hx; trivial

theorem MShape.evalUnc {m : Machine F} (h : MShape m) {x : Arg F} {u : UF F}
    (hx : x.evalUnc m.env = some u) : u.Valid m.w := by
  simp only [Arg.evalUnc] at hx
  split at hx
  · rename_i u' he
    cases hx
    exact h.eval he
  · cases hx

theorem evalArgs_all {α β : Type} {ev : α → Option β} {l : List α} {vs : List β}
    (h : evalArgs ev l = some vs) : ∀ v ∈ vs, ∃ a ∈ l, ev a = some v := by
  induction l generalizing vs with
  | nil => cases h; simp
  | cons a l ih =>
    simp only [evalArgs] at h
    split at h
    · cases h
    · rename_i v hv
      split at h
      · cases h
      · rename_i vs' hvs
        cases h
        intro x hx
        rcases List.mem_cons.mp hx with rfl | hx
        · exact ⟨a, by simp, hv⟩
        · obtain ⟨b, hb, hb'⟩ := ih hvs x hx
          exact ⟨b, by simp [hb], hb'⟩

theorem evalArgs_some_map {α β γ : Type} {ev : α → Option β} {ev' : α → Option γ} {g : β → γ} {l : List α}
    {vs : List β} (h : evalArgs ev l = some vs)
    (hg : ∀ a ∈ l, ∀ v, ev a = some v → ev' a = some (g v)) :
    evalArgs ev' l = some (vs.map g) := by
  induction l generalizing vs with
  | nil => cases h; rfl
  | cons a l ih =>
    simp only [evalArgs] at h
    split at h
    · cases h
    · rename_i v hv
      split at h
      · cases h
      · rename_i vs' hvs
        cases h
        simp only [evalArgs, hg a (by simp) v hv, ih hvs (fun b hb => hg b (by simp [hb])),
          List.map_cons]

theorem evalArgs_some_length {α β : Type} {ev : α → Option β} {l : List α} {vs : List β}
    (h : evalArgs ev l = some vs) : vs.length = l.length := by
  induction l generalizing vs with
  | nil => cases h; rfl
  | cons a l ih =>
    simp only [evalArgs] at h
    split at h
    · cases h
    · split at h
      · cases h
      · rename_i vs' hvs
        cases h
        simp [ih hvs]

theorem NomRel.eval {m : Machine F} {p : Plain F} (h : NomRel m p) {x : Arg F} {v : Val F}
    (hx : x.eval m.env = some v) : x.plain p.env = some v.nominal := by
  cases x with
  | ref k =>
    simp only [Arg.eval] at hx
    cases hg : m.env[k]? with
    | none => rw [hg] at hx; cases hx
    | some o =>
      rw [hg] at hx
      simp only [Option.join_some] at hx
      subst hx
      simp [Arg.plain, h.env k v hg]
  | const c => cases hx; rfl

theorem NomRel.evalUnc {m : Machine F} {p : Plain F} (h : NomRel m p) {x : Arg F} {u : UF F}
    (hx : x.evalUnc m.env = some u) : x.plain p.env = some (.flt u.nom) := by
  simp only [Arg.evalUnc] at hx
  split at hx
  · rename_i u' he
    cases hx
    exact h.eval he
  · cases hx

theorem NomRel.evalKw {m : Machine F} {p : Plain F} (h : NomRel m p) {q : String × Arg F}
    {v : String × Val F} (hx : Arg.evalKw m.env q = some v) :
    Arg.plainKw p.env q = some (v.1, v.2.nominal) := by
  simp only [Arg.evalKw, Option.map_eq_some_iff] at hx
  obtain ⟨a, ha, rfl⟩ := hx
  simp [Arg.plainKw, h.eval ha]

/-! ### Kinds of steps -/

theorem MShape.reads {m : Machine F} (h : MShape m) {w' : World F} (hr : Reads m.w w') :
    MShape ⟨w', m.env⟩ :=
  ⟨hr.shape, h.ops.of_fns hr.fns, fun v hv => (h.env v hv).grows hr.grows⟩

theorem NomRel.sameEnv {m : Machine F} {p : Plain F} (h : NomRel m p) {w' : World F}
    (hf : w'.wraps.map Wrapped.df = m.w.wraps.map Wrapped.df) : NomRel ⟨w', m.env⟩ p :=
  ⟨h.fns.trans hf.symm, h.len, h.env⟩

theorem Cmd.read_defs {c : Cmd F} (hc : c.isRead = true) : c.defs = [] := by
  cases c <;> first | rfl | simp [Cmd.isRead] at hc

theorem Cmd.read_arity {c : Cmd F} (hc : c.isRead = true) : c.arity = 0 := by
  cases c <;> first | rfl | simp [Cmd.isRead] at hc

theorem Plain.step_read {c : Cmd F} (hc : c.isRead = true) (p : Plain F) : p.step c = p := by
  cases c <;> first | rfl | simp [Cmd.isRead] at hc

/-- A command that reads. -/
theorem StepOK.ofRead {m : Machine F} (h : MShape m) {c : Cmd F} (hc : c.isRead = true) {w' : World F}
    {o : Out F} (hr : Reads m.w w') (ho : o ≠ .err .outOfFuel) : StepOK m c ⟨w', m.env⟩ o := by
  refine ⟨h.reads hr, ?_, ⟨[], by simp, (Cmd.read_arity hc).symm⟩, fun _ => ⟨rfl, hr.vars, ho⟩, ?_⟩
  · simp [Cmd.read_defs hc, hr.fns]
  · intro _ p hp
    rw [Plain.step_read hc]
    exact hp.sameEnv hr.fns

/-- A command that creates objects. -/
theorem StepOK.ofBind {m : Machine F} (h : MShape m) {c : Cmd F} (hc : c.isRead = false)
    (hd : c.defs = []) {w' : World F} {o : Out F} {l : List (Option (Val F))} (hr : Grows m.w w')
    (hl : l.length = c.arity) (hv : ∀ v, some v ∈ l → v.Valid w')
    (hp : c.isVariable = false → ∀ p, NomRel m p → ∃ l', p.step c = ⟨p.fns, p.env ++ l'⟩ ∧
      l'.length = l.length ∧ ∀ (k : Nat) (v : Val F), l[k]? = some (some v) → l'[k]? = some (some v.nominal)) :
    StepOK m c ⟨w', m.env ++ l⟩ o := by
  refine ⟨⟨hr.shape, h.ops.of_fns hr.fns, ?_⟩, ?_, ⟨l, rfl, hl⟩, ?_, ?_⟩
  · intro v hmem
    rcases List.mem_append.mp hmem with h' | h'
    · exact (h.env v h').grows hr
    · exact hv v h'
  · simp [hd, hr.fns]
  · intro h'; rw [hc] at h'; cases h'
  · intro hnv p hpm
    obtain ⟨l', e, hlen, hnom⟩ := hp hnv p hpm
    rw [e]
    refine ⟨hpm.fns.trans hr.fns.symm, by simp [hpm.len, hlen], ?_⟩
    intro k v hk
    simp only at hk
    by_cases hlt : k < m.env.length
    · rw [List.getElem?_append_left hlt] at hk
      rw [List.getElem?_append_left (by rw [hpm.len]; exact hlt)]
      exact hpm.env k v hk
    · rw [List.getElem?_append_right (by omega)] at hk
      rw [List.getElem?_append_right (by rw [hpm.len]; omega), hpm.len]
      exact hnom _ v hk

/-- A command that binds nothing useful. -/
theorem StepOK.ofNone {m : Machine F} (h : MShape m) {c : Cmd F} (hc : c.isRead = false)
    (hd : c.defs = []) {w' : World F} {o : Out F} {l : List (Option (Val F))} (hr : Grows m.w w')
    (hl : l = List.replicate c.arity none)
    (hp : c.isVariable = false → ∀ p : Plain F, ∃ l', p.step c = ⟨p.fns, p.env ++ l'⟩ ∧
      l'.length = c.arity) :
    StepOK m c ⟨w', m.env ++ l⟩ o := by
  subst hl
  refine StepOK.ofBind h hc hd hr (by simp) ?_ ?_
  · intro v hv; simp [List.mem_replicate] at hv
  · intro hnv p hpm
    obtain ⟨l', e, hlen⟩ := hp hnv p
    refine ⟨l', e, by simp [hlen], ?_⟩
    intro k v hk
    simp [List.getElem?_replicate] at hk

/-- The number of values bound with plain floats is the same. -/
theorem Plain.step_arity (p : Plain F) {c : Cmd F} (hd : c.defs = []) :
    ∃ l', p.step c = ⟨p.fns, p.env ++ l'⟩ ∧ l'.length = c.arity := by
  cases c <;> simp only [Plain.step, Cmd.arity]
  case ufloat => exact ⟨_, rfl, rfl⟩
  case affine => exact ⟨_, rfl, rfl⟩
  case wrap => simp [Cmd.defs] at hd
  case call =>
    split
    · exact ⟨_, rfl, rfl⟩
    · exact ⟨_, rfl, rfl⟩
  case unop => exact ⟨_, rfl, rfl⟩
  case binop =>
    split
    · exact ⟨_, rfl, rfl⟩
    · exact ⟨_, rfl, rfl⟩
  case modf =>
    split
    · exact ⟨_, rfl, rfl⟩
    · exact ⟨_, rfl, rfl⟩
  case ldexp =>
    split
    · exact ⟨_, rfl, rfl⟩
    · exact ⟨_, rfl, rfl⟩
  case lcst =>
    split
    · exact ⟨_, rfl, rfl⟩
    · exact ⟨_, rfl, rfl⟩
  case copy => exact ⟨_, rfl, rfl⟩
  case deepcopy => exact ⟨_, rfl, rfl⟩
  case pickle => exact ⟨_, rfl, by simp⟩
  case «variable» => exact ⟨_, rfl, rfl⟩
  all_goals exact ⟨[], by simp, rfl⟩

theorem StepOK.ofInvalid {m : Machine F} (h : MShape m) {c : Cmd F} (hc : c.isRead = false)
    (hd : c.defs = []) {o : Out F} {n : Nat} (hn : n = c.arity) :
    StepOK m c ⟨m.w, m.env ++ List.replicate n none⟩ o :=
  StepOK.ofNone h hc hd (Grows.refl h.shape) (by rw [hn]) (fun _ p => Plain.step_arity p hd)

theorem StepOK.ofInvalidRead {m : Machine F} (h : MShape m) {c : Cmd F} (hc : c.isRead = true) :
    StepOK m c (m.invalid 0).1 (m.invalid 0).2 := by
  have := StepOK.ofRead h hc (o := .invalid) (Reads.refl h.shape) (by simp)
  simpa [Machine.invalid] using this

/-- A command that creates one object. -/
theorem StepOK.ofOne {m : Machine F} (h : MShape m) {c : Cmd F} (hc : c.isRead = false)
    (hd : c.defs = []) (ha : c.arity = 1) {w' : World F} {o : Out F} {v : Val F} (hr : Grows m.w w')
    (hv : v.Valid w')
    (hp : c.isVariable = false → ∀ p, NomRel m p → p.step c = ⟨p.fns, p.env ++ [some v.nominal]⟩) :
    StepOK m c ⟨w', m.env ++ [some v]⟩ o := by
  refine StepOK.ofBind h hc hd hr (by simp [ha]) ?_ ?_
  · intro v' hv'; simp at hv'; subst hv'; exact hv
  · intro hnv p hpm
    refine ⟨_, hp hnv p hpm, rfl, ?_⟩
    intro k v' hk
    match k, hk with
    | 0, hk => simp at hk; subst hk; rfl

/-- A command whose result is bound. -/
theorem StepOK.ofRes {m : Machine F} (h : MShape m) {c : Cmd F} (hc : c.isRead = false)
    (hd : c.defs = []) (ha : c.arity = 1) {w' : World F} {r : PyRes (Val F)} (hr : Grows m.w w')
    (hv : ∀ v, r = .ok v → v.Valid w' ∧ (v ≠ .plain .notImpl → c.isVariable = false → ∀ p, NomRel m p →
      p.step c = ⟨p.fns, p.env ++ [some v.nominal]⟩)) :
    StepOK m c (Machine.bind m.env w' r).1 (Machine.bind m.env w' r).2 := by
  have none : ∀ o, StepOK m c ⟨w', m.env ++ [none]⟩ o := fun o =>
    StepOK.ofNone h hc hd hr (by rw [ha]; rfl) (fun _ p => Plain.step_arity p hd)
  cases r with
  | error e => exact none _
  | ok v =>
    have key : v ≠ .plain .notImpl → StepOK m c ⟨w', m.env ++ [some v]⟩ .done := by
      intro hn
      obtain ⟨h1, h2⟩ := hv v rfl
      exact StepOK.ofOne h hc hd ha hr h1 (fun hnv p hp => h2 hn hnv p hp)
    cases v with
    | unc u => exact key (by simp)
    | plain x =>
      cases x with
      | notImpl => exact none _
      | flt x => exact key (by simp)
      | cplx => exact key (by simp)
      | other n => exact key (by simp)

/-- A command that creates numbers with uncertainty. -/
theorem StepOK.ofUF {m : Machine F} (h : MShape m) {c : Cmd F} (hc : c.isRead = false)
    (hd : c.defs = []) (ha : c.arity = 1) {w' : World F} {r : PyRes (UF F)} (hr : Grows m.w w')
    (hv : ∀ u, r = .ok u → u.Valid w' ∧ (c.isVariable = false → ∀ p, NomRel m p →
      p.step c = ⟨p.fns, p.env ++ [some (.flt u.nom)]⟩)) :
    StepOK m c (Machine.bind m.env w' (r.map Val.unc)).1 (Machine.bind m.env w' (r.map Val.unc)).2 := by
  refine StepOK.ofRes h hc hd ha hr (r := r.map Val.unc) ?_
  intro v hv'
  cases r with
  | error e => cases hv'
  | ok u =>
    cases hv'
    obtain ⟨h1, h2⟩ := hv u rfl
    exact ⟨h1, fun _ => h2⟩

/-- A command that reads something of a number with uncertainty. -/
theorem StepOK.ofReadUF {m : Machine F} (h : MShape m) {c : Cmd F} (hc : c.isRead = true) {x : Arg F}
    {α : Type} (f : World F → UF F → World F × PyRes α) (g : α → Out F) (hg : ∀ a, g a ≠ .err .outOfFuel)
    (hf : ∀ u, u.Valid m.w → ∃ w' r, f m.w u = (w', r) ∧ Reads m.w w' ∧ Fine r) :
    StepOK m c (m.read x (fun w u => mapRes g (f w u))).1 (m.read x (fun w u => mapRes g (f w u))).2 := by
  simp only [Machine.read]
  cases hx : x.evalUnc m.env with
  | none => exact StepOK.ofInvalidRead h hc
  | some u =>
    obtain ⟨w', r, h1, h2, h3⟩ := hf u (h.evalUnc hx)
    simp only [mapRes, h1]
    cases r with
    | error e =>
      refine StepOK.ofRead h hc h2 ?_
      intro he
      cases he
      exact h3 rfl
    | ok a => exact StepOK.ofRead h hc h2 (hg a)

variable [Halts F]

/-- All the commands. -/
theorem Machine.step_ok {m : Machine F} (h : MShape m) (c : Cmd F) :
    StepOK m c (m.step c).1 (m.step c).2 := by
  cases c with
  | ufloat n s tag =>
    obtain ⟨w', r, h1, h2, -, h3⟩ := World.ufloat_shape h.shape n s tag
    simp only [Machine.step, h1]
    have key := StepOK.ofUF h (c := .ufloat n s tag) (r := r) rfl rfl rfl h2 ?_
    · cases r with
      | error e => exact key
      | ok u => exact key
    intro u hu
    rcases h3 with ⟨-, -, hr⟩ | ⟨-, l, -, u', hr, hv, hn, -⟩
    · rw [hr] at hu; cases hu
    · rw [hr] at hu
      cases hu
      exact ⟨hv, fun _ p _ => by rw [hn]; rfl⟩
  | affine n items =>
    simp only [Machine.step]
    cases hx : evalArgs (Arg.evalItem m.env) items with
    | none => exact StepOK.ofInvalid h rfl rfl rfl
    | some d =>
      simp only
      split
      · have hr := h.shape.alloc (.dict d) (by
          intro d' hd v hv
          cases hd
          obtain ⟨q, hq, rfl⟩ := List.mem_map.mp hv
          obtain ⟨p, -, hp⟩ := evalArgs_all hx _ hq
          simp only [Arg.evalItem] at hp
          cases hu : p.1.evalUnc m.env with
          | none => simp [hu] at hp
          | some u =>
            simp only [hu, Option.bind_some, Option.map_eq_some_iff] at hp
            obtain ⟨v', e1, e2⟩ := hp
            cases e2
            obtain ⟨c, hc, -⟩ := (h.evalUnc hu).2 _ e1
            exact (List.getElem?_eq_some_iff.mp hc).1) (fun ts ht => by cases ht)
        exact StepOK.ofOne h rfl rfl rfl hr.grows
          (v := .unc { nom := n, lin := m.w.nodes.length, var := none })
          ⟨by simp [World.alloc], fun v hv => by cases hv⟩ (fun _ p _ => rfl)
      · exact StepOK.ofInvalid h rfl rfl rfl
  | wrap df =>
    refine ⟨⟨⟨h.shape.heap, h.shape.keys, h.shape.vars, h.shape.std, ?_⟩, ?_, h.env⟩, ?_,
      ⟨[], by simp [Machine.step], rfl⟩, fun hr => by simp [Cmd.isRead] at hr, ?_⟩
    · intro k wf hk
      simp only [Machine.step, World.wrap] at hk
      by_cases hlt : k < m.w.wraps.length
      · rw [List.getElem?_append_left hlt] at hk; exact h.shape.wraps k wf hk
      · have hlen := (List.getElem?_eq_some_iff.mp hk).1
        simp only [List.length_append, List.length_singleton] at hlen
        have : k = m.w.wraps.length := by omega
        subst this
        simp at hk
        subst hk
        exact mkWrapped_ok df
    · have := h.ops
      unfold HasOps at this ⊢
      simp only [Machine.step, World.wrap, List.map_append]
      exact this.trans (List.prefix_append _ _)
    · simp [Machine.step, World.wrap, Cmd.defs, mkWrapped_df]
    · intro _ p hp
      refine ⟨?_, hp.len, hp.env⟩
      simp [Machine.step, World.wrap, Plain.step, hp.fns, mkWrapped_df]
  | call f args kwargs =>
    simp only [Machine.step]
    split
    · rename_i hf
      cases ha : evalArgs (Arg.eval m.env) args with
      | none => exact StepOK.ofInvalid h rfl rfl rfl
      | some a =>
        cases hk : evalArgs (Arg.evalKw m.env) kwargs with
        | none => exact StepOK.ofInvalid h rfl rfl rfl
        | some k =>
          have hg : (m.w.wraps[f]?).map Wrapped.df = some (m.w.wraps[f]).df := by
            rw [List.getElem?_eq_getElem hf]; rfl
          have hav : ∀ v ∈ a, v.Valid m.w := by
            intro v hv
            obtain ⟨x, -, hx⟩ := evalArgs_all ha v hv
            exact h.eval hx
          have hkv : ∀ v ∈ k, v.2.Valid m.w := by
            intro v hv
            obtain ⟨x, -, hx⟩ := evalArgs_all hk v hv
            simp only [Arg.evalKw, Option.map_eq_some_iff] at hx
            obtain ⟨y, hy, rfl⟩ := hx
            exact h.eval hy
          obtain ⟨w', r, h1, h2, h3⟩ := World.call_shape h.shape hg hav hkv
          simp only [h1]
          refine StepOK.ofRes h rfl rfl rfl h2.grows ?_
          intro v hv
          obtain ⟨k1, k2⟩ := h3.nominally.ok v hv
          refine ⟨k1, fun hn _ p hp => ?_⟩
          have e1 : p.fns[f]? = some (m.w.wraps[f]).df := by
            rw [hp.fns, List.getElem?_map]; exact hg
          have e2 := evalArgs_some_map (ev' := Arg.plain p.env) (g := Val.nominal) ha
            (fun x _ v hx => hp.eval hx)
          have e3 := evalArgs_some_map (ev' := Arg.plainKw p.env)
            (g := fun q : String × Val F => (q.1, q.2.nominal)) hk (fun x _ v hx => hp.evalKw hx)
          simp only [Plain.step, e1, e2, e3]
          rcases k2 with k2 | k2
          · exact absurd k2 hn
          · rw [k2]; rfl
    · exact StepOK.ofInvalid h rfl rfl rfl
  | unop op x =>
    simp only [Machine.step]
    cases hx : x.evalUnc m.env with
    | none => exact StepOK.ofInvalid h rfl rfl rfl
    | some u =>
      obtain ⟨w', r, h1, h2, h3⟩ := World.unop_shape h.shape h.ops op (h.evalUnc hx)
      simp only [h1]
      refine StepOK.ofRes h rfl rfl rfl h2.grows ?_
      intro v hv
      obtain ⟨k1, k2⟩ := h3.nominally.ok v hv
      refine ⟨k1, fun hn _ p hp => ?_⟩
      rcases k2 with k2 | k2
      · exact absurd k2 hn
      · simp only [Plain.step, hp.evalUnc hx, Option.bind_some, plainUnop, k2, valueOf]
  | binop op x y =>
    simp only [Machine.step]
    cases hx : x.eval m.env with
    | none => exact StepOK.ofInvalid h rfl rfl rfl
    | some a =>
      cases hy : y.eval m.env with
      | none => exact StepOK.ofInvalid h rfl rfl rfl
      | some b =>
        simp only []
        split
        · rename_i hu
          obtain ⟨w', r, h1, h2, h3, -⟩ := World.binop_shape h.shape h.ops op (h.eval hx) (h.eval hy) hu
          simp only [h1]
          refine StepOK.ofRes h rfl rfl rfl h2.grows ?_
          intro v hv
          obtain ⟨k1, k2⟩ := h3.ok v hv
          refine ⟨k1, fun hn _ p hp => ?_⟩
          rcases k2 with k2 | k2
          · exact absurd k2 hn
          · simp only [Plain.step, hp.eval hx, hp.eval hy, k2, valueOf]
        · exact StepOK.ofInvalid h rfl rfl rfl
  | modf x =>
    simp only [Machine.step]
    cases hx : x.eval m.env with
    | none => exact StepOK.ofInvalid h rfl rfl rfl
    | some v =>
      obtain ⟨w', r, h1, h2, h3⟩ := World.modf_shape h.shape (h.eval hx)
      simp only [h1]
      cases hcst : m.w.isConst v with
      | true => exact StepOK.ofInvalid h rfl rfl rfl
      | false =>
      simp only [Bool.false_eq_true, if_false]
      cases r with
      | error e =>
        exact StepOK.ofNone h rfl rfl h2.grows rfl (fun _ p => Plain.step_arity p rfl)
      | ok q =>
        obtain ⟨a, b⟩ := q
        obtain ⟨k1, n, k2, k3, k4⟩ := h3 _ rfl
        refine StepOK.ofBind h rfl rfl h2.grows rfl ?_ ?_
        · intro z hz
          simp only [List.mem_cons, Option.some.injEq, List.not_mem_nil, or_false] at hz
          rcases hz with rfl | rfl
          · exact k1
          · trivial
        · intro _ p hp
          refine ⟨[some (.flt (PyMath.modf n).1), some (.flt (PyMath.modf n).2)], ?_, rfl, ?_⟩
          · have := hp.eval hx
            rw [k2] at this
            simp only [Plain.step, this]
          · intro k z hk
            simp only at k3 k4
            match k, hk with
            | 0, hk => simp at hk; subst hk; simp [k3]
            | 1, hk => simp at hk; subst hk; simp [Val.nominal, k4]
  | ldexp x i =>
    simp only [Machine.step]
    cases hx : x.eval m.env with
    | none => exact StepOK.ofInvalid h rfl rfl rfl
    | some v =>
      obtain ⟨w', r, h1, h2, h3⟩ := World.ldexp_shape h.shape (h.eval hx) i
      simp only [h1]
      cases hcst : m.w.isConst v with
      | true => exact StepOK.ofInvalid h rfl rfl rfl
      | false =>
      simp only [Bool.false_eq_true, if_false]
      refine StepOK.ofRes h rfl rfl rfl h2.grows ?_
      intro y hy
      obtain ⟨k1, a, b, k2, k3, k4⟩ := h3 y hy
      refine ⟨k1, fun hn _ p hp => ?_⟩
      have := hp.eval hx
      rw [k2] at this
      simp only [Plain.step, this, k3, valueOf, Option.map_some, k4]
  | lcst f args kwargs =>
    simp only [Machine.step]
    cases ha : evalArgs (Arg.eval m.env) args with
    | none => exact StepOK.ofInvalid h rfl rfl rfl
    | some a =>
      cases hk : evalArgs (Arg.evalKw m.env) kwargs with
      | none => exact StepOK.ofInvalid h rfl rfl rfl
      | some k =>
        simp only []
        refine StepOK.ofRes h rfl rfl rfl (Grows.refl h.shape) ?_
        intro y hy
        cases hv : f (a.map Val.nominal) (k.map fun p => (p.1, p.2.nominal)) with
        | error e => simp [wrapLocallyCst, hv, Except.map] at hy
        | ok v =>
          simp [wrapLocallyCst, hv, Except.map] at hy
          subst hy
          refine ⟨trivial, fun hn _ p hp => ?_⟩
          have e2 := evalArgs_some_map (ev' := Arg.plain p.env) (g := Val.nominal) ha
            (fun x _ v hx => hp.eval hx)
          have e3 := evalArgs_some_map (ev' := Arg.plainKw p.env)
            (g := fun q : String × Val F => (q.1, q.2.nominal)) hk (fun x _ v hx => hp.evalKw hx)
          simp only [Plain.step, e2, e3, hv, valueOf]
          rfl
  | copy x =>
    simp only [Machine.step]
    cases hx : x.evalUnc m.env with
    | none => exact StepOK.ofInvalid h rfl rfl rfl
    | some u =>
      obtain ⟨w', u', h1, h2, h3, h4⟩ := World.copy_shape h.shape (h.evalUnc hx)
      simp only [h1]
      refine StepOK.ofOne h rfl rfl rfl h2 h3 ?_
      intro _ p hp
      simp only [Plain.step, hp.evalUnc hx, Val.nominal, h4]
  | deepcopy x =>
    simp only [Machine.step]
    cases hx : x.evalUnc m.env with
    | none => exact StepOK.ofInvalid h rfl rfl rfl
    | some u =>
      obtain ⟨w', u', h1, h2, h3, h4⟩ := World.deepcopy_shape h.shape (h.evalUnc hx)
      simp only [h1]
      refine StepOK.ofOne h rfl rfl rfl h2 h3 ?_
      intro _ p hp
      simp only [Plain.step, hp.evalUnc hx, Val.nominal, h4]
  | pickle xs =>
    simp only [Machine.step]
    cases hx : evalArgs (Arg.evalUnc m.env) xs with
    | none => exact StepOK.ofInvalid h rfl rfl rfl
    | some us =>
      obtain ⟨w', us', h1, h2, h3, h4⟩ := pickleList_shape us h.shape (MemoOK.empty _) (by
        intro u hu
        obtain ⟨x, -, hx'⟩ := evalArgs_all hx u hu
        exact h.evalUnc hx')
      have h1' : m.w.pickle us = (w', .ok us') := h1
      simp only [h1']
      have hlen : us'.length = us.length := by
        have := congrArg List.length h4
        simpa using this
      refine StepOK.ofBind h rfl rfl h2 ?_ ?_ ?_
      · simp only [List.length_map, Cmd.arity]
        rw [hlen, evalArgs_some_length hx]
      · intro v hv
        simp only [List.mem_map, Option.some.injEq] at hv
        obtain ⟨u, hu, rfl⟩ := hv
        exact h3 u hu
      · intro _ p hp
        have e2 := evalArgs_some_map (ev' := Arg.plain p.env) (g := fun u : UF F => PyVal.flt u.nom) hx
          (fun x _ v hx => hp.evalUnc hx)
        refine ⟨_, rfl, ?_, ?_⟩
        · simp [hlen, evalArgs_some_length hx]
        · intro k v hk
          have hmap : ∀ (l : List (Arg F)) (vs : List (PyVal F)), evalArgs (Arg.plain p.env) l = some vs →
              l.map (Arg.plain p.env) = vs.map some := by
            intro l
            induction l with
            | nil => intro vs hvs; cases hvs; rfl
            | cons a l ih =>
              intro vs hvs
              simp only [evalArgs] at hvs
              split at hvs
              · cases hvs
              · rename_i y hy
                split at hvs
                · cases hvs
                · rename_i ys hys
                  cases hvs
                  simp [hy, ih ys hys]
          rw [hmap xs _ e2]
          simp only [List.getElem?_map, Option.map_eq_some_iff, Option.some.injEq] at hk ⊢
          obtain ⟨u, hu, rfl⟩ := hk
          have hn : (us.map UF.nom)[k]? = some u.nom := by
            rw [← h4, List.getElem?_map, hu]; rfl
          rw [List.getElem?_map, Option.map_eq_some_iff] at hn
          obtain ⟨u0, hu0, hn⟩ := hn
          exact ⟨_, ⟨u0, hu0, rfl⟩, by rw [hn]; rfl⟩
  | «variable» x v =>
    simp only [Machine.step]
    cases hx : x.evalUnc m.env with
    | none => exact StepOK.ofInvalid h rfl rfl rfl
    | some u =>
      obtain ⟨w', r, h1, h2, -, h3⟩ := World.variable_shape h.shape (h.evalUnc hx) v
      simp only [h1]
      have key := StepOK.ofUF h (c := .variable x v) (r := r) rfl rfl rfl h2.grows
        (fun u' hu' => ⟨(h3 u' hu').1, fun hv => by simp [Cmd.isVariable] at hv⟩)
      cases r with
      | error e => exact key
      | ok u => exact key
  | setStd x s =>
    have key : ∀ (w' : World F) (o : Out F), Grows m.w w' → StepOK m (.setStd x s) ⟨w', m.env⟩ o := by
      intro w' o hg
      refine ⟨⟨hg.shape, h.ops.of_fns hg.fns, fun v hv => (h.env v hv).grows hg⟩, by simp [Cmd.defs, hg.fns],
        ⟨[], by simp, rfl⟩, fun hr => by simp [Cmd.isRead] at hr, ?_⟩
      intro _ p hp
      exact hp.sameEnv hg.fns
    simp only [Machine.step, Machine.read]
    cases hx : x.evalUnc m.env with
    | none =>
      have := key m.w .invalid (Grows.refl h.shape)
      simpa [Machine.invalid] using this
    | some u =>
      simp only [World.assignStd]
      cases hv : u.var with
      | none => exact key m.w _ (Grows.refl h.shape)
      | some v =>
        obtain ⟨w', r, h1, h2, h3⟩ := World.setStd_shape h.shape v s
        simp only [h1, mapRes]
        cases r with
        | error e => exact key w' _ h2
        | ok a => exact key w' _ h2
  | nominal x =>
    simp only [Machine.step]
    cases hx : x.eval m.env with
    | none => exact StepOK.ofInvalidRead h rfl
    | some v => exact StepOK.ofRead h rfl (Reads.refl h.shape) (by simp)
  | stdDev x =>
    simp only [Machine.step]
    cases hx : x.eval m.env with
    | none => exact StepOK.ofInvalidRead h rfl
    | some v =>
      cases v with
      | plain v => exact StepOK.ofRead h rfl (Reads.refl h.shape) (by simp [World.stdDevOf])
      | unc u =>
        have hu : u.Valid m.w := h.eval hx
        obtain ⟨w', r, h1, h2, h3⟩ := World.stdDev_shape h.shape hu
        simp only [World.stdDevOf, h1]
        cases r with
        | error e => exact StepOK.ofRead h rfl h2 (by intro he; cases he; exact h3 rfl)
        | ok s => exact StepOK.ofRead h rfl h2 (by simp)
  | s x => exact StepOK.ofReadUF h rfl _ _ (by simp) (fun u hu => World.affStdDev_shape h.shape hu)
  | derivatives x =>
    refine StepOK.ofReadUF h rfl _ _ (by simp) (fun u hu => ?_)
    obtain ⟨w', d, h1, h2, -⟩ := World.derivatives_shape h.shape hu
    exact ⟨w', _, h1, h2, by simp [Fine]⟩
  | errorComponents x =>
    refine StepOK.ofReadUF h rfl _ _ (by simp) (fun u hu => ?_)
    obtain ⟨w', d, h1, h2⟩ := World.errorComponents_shape h.shape hu
    exact ⟨w', _, h1, h2, by simp [Fine]⟩
  | stdScore x value =>
    exact StepOK.ofReadUF h rfl (fun w u => w.stdScore u value) _ (by simp)
      (fun u hu => World.stdScore_shape h.shape hu value)
  | covarianceMatrix xs =>
    simp only [Machine.step]
    cases hx : evalArgs (Arg.evalUnc m.env) xs with
    | none => exact StepOK.ofInvalidRead h rfl
    | some us =>
      obtain ⟨w', r, h1, h2, h3⟩ := World.covarianceMatrix_shape us h.shape (by
        intro u hu
        obtain ⟨x, -, hx'⟩ := evalArgs_all hx u hu
        exact h.evalUnc hx')
      simp only [h1]
      cases r with
      | error e => exact StepOK.ofRead h rfl h2 (by intro he; cases he; exact h3 rfl)
      | ok s => exact StepOK.ofRead h rfl h2 (by simp)
  | compare op x y =>
    simp only [Machine.step]
    cases hx : x.eval m.env with
    | none => exact StepOK.ofInvalidRead h rfl
    | some a =>
      cases hy : y.eval m.env with
      | none => exact StepOK.ofInvalidRead h rfl
      | some b =>
        simp only []
        split
        · obtain ⟨w', r, h1, h2, h3⟩ := World.compare_shape h.shape h.ops op (h.eval hx) (h.eval hy)
          simp only [h1]
          cases r with
          | error e => exact StepOK.ofRead h rfl h2 (by intro he; cases he; exact h3 rfl)
          | ok s => exact StepOK.ofRead h rfl h2 (by simp)
        · exact StepOK.ofInvalidRead h rfl
  | toBool x =>
    exact StepOK.ofReadUF h rfl (fun w u => w.toBool BinOp.sub.id u) _ (by simp)
      (fun u hu => World.toBool_shape h.shape h.ops hu)
  | tag x =>
    refine StepOK.ofReadUF h rfl (fun w u => w.tag u) _ (by simp) (fun u hu => ?_)
    simp only [World.tag]
    cases hv : u.var with
    | none => exact ⟨m.w, _, rfl, Reads.refl h.shape, by simp [Fine]⟩
    | some v =>
      obtain ⟨cell, hc, -⟩ := hu.2 v hv
      simp only [hc]
      exact ⟨m.w, _, rfl, Reads.refl h.shape, by simp [Fine]⟩

/-! ### Histories -/

omit [Halts F] in
theorem MShape.init : MShape (Machine.init : Machine F) := by
  refine ⟨⟨?_, ?_, ?_, ?_, ?_⟩, ?_, ?_⟩
  · intro i ts hi; simp [Machine.init, World.init] at hi
  · intro i d hi; simp [Machine.init, World.init] at hi
  · intro v c hc; simp [Machine.init, World.init] at hc
  · intro v c hc; simp [Machine.init, World.init] at hc
  · intro k wf hk
    simp only [Machine.init, World.init, List.getElem?_map, Option.map_eq_some_iff] at hk
    obtain ⟨df, -, rfl⟩ := hk
    exact mkWrapped_ok df
  · have hm : ∀ l : List (WrapDef F), (l.map mkWrapped).map Wrapped.df = l := by
      intro l
      rw [List.map_map]
      conv_rhs => rw [← List.map_id l]
      exact List.map_congr_left (fun df _ => mkWrapped_df df)
    unfold HasOps
    simp only [Machine.init, World.init, hm]
    exact List.prefix_refl _
  · intro v hv; simp [Machine.init] at hv

omit [Halts F] in
theorem run_append (m : Machine F) (cs cs' : List (Cmd F)) :
    (m.run (cs ++ cs')).1 = ((m.run cs).1.run cs').1 := by
  induction cs generalizing m with
  | nil => rfl
  | cons c cs ih =>
    simp only [List.cons_append, Machine.run]
    exact ih _

omit [Halts F] in
theorem after_snoc' (cs : List (Cmd F)) (c : Cmd F) : after (cs ++ [c]) = ((after cs).step c).1 := by
  unfold after
  rw [run_append]
  rfl

theorem MShape.after (cs : List (Cmd F)) : MShape (after cs) := by
  induction cs using List.reverseRecOn with
  | nil => exact MShape.init
  | append_singleton cs c ih => rw [after_snoc']; exact (Machine.step_ok ih c).shape

theorem after_step_ok (cs : List (Cmd F)) (c : Cmd F) :
    StepOK (after cs) c (after (cs ++ [c])) (sees cs c) := by
  rw [after_snoc']
  exact Machine.step_ok (MShape.after cs) c

omit [Halts F] in
theorem Plain.run_append (p : Plain F) (cs cs' : List (Cmd F)) :
    p.run (cs ++ cs') = (p.run cs).run cs' := by
  induction cs generalizing p with
  | nil => rfl
  | cons c cs ih => exact ih _

omit [Halts F] in
theorem plainly_snoc (cs : List (Cmd F)) (c : Cmd F) : plainly (cs ++ [c]) = (plainly cs).step c := by
  unfold plainly
  rw [Plain.run_append]
  rfl

theorem NomRel.after (cs : List (Cmd F)) (hv : ∀ c ∈ cs, c.isVariable = false) :
    NomRel (after cs) (plainly cs) := by
  induction cs using List.reverseRecOn with
  | nil =>
    refine ⟨?_, rfl, by intro k v hk; simp [Unc.after, Machine.run, Machine.init] at hk⟩
    have hm : ∀ l : List (WrapDef F), (l.map mkWrapped).map Wrapped.df = l := by
      intro l
      rw [List.map_map]
      conv_rhs => rw [← List.map_id l]
      exact List.map_congr_left (fun df _ => mkWrapped_df df)
    simp only [Unc.after, Machine.run, Machine.init, World.init, hm]
    rfl
  | append_singleton cs c ih =>
    rw [plainly_snoc]
    exact (after_step_ok cs c).plain (hv c (by simp)) _ (ih (fun c hc => hv c (by simp [hc])))

theorem fnsOf_after (cs : List (Cmd F)) : (after cs).w.wraps.map Wrapped.df = fnsOf cs := by
  induction cs using List.reverseRecOn with
  | nil =>
    have := (NomRel.after (F := F) [] (by simp)).fns
    rw [← this]
    simp [fnsOf, plainly, Plain.run]
  | append_singleton cs c ih =>
    rw [(after_step_ok cs c).fns, ih]
    simp [fnsOf]

end Unc
