import Mathlib.Data.List.Basic
import Verif.Model.Text

/-! # Lemmas about regular expressions as ordered lists of matches -/

set_option autoImplicit false

namespace Unc
namespace Re

variable {α β : Type}

/-- The first match. -/
def Hd (r : Re α) (s : Str) (m : α × Str) : Prop := (r s).head? = some m

theorem Hd.first {r : Re α} {s : Str} {m : α × Str} (h : Hd r s m) : first r s = some m.1 := by
  unfold Hd at h
  simp [Re.first, h]

theorem first_hd {r : Re α} {s : Str} {a : α} (h : first r s = some a) : ∃ t, Hd r s (a, t) := by
  unfold Re.first at h
  cases hr : (r s).head? with
  | none => rw [hr] at h; simp at h
  | some m =>
    rw [hr] at h
    obtain rfl : m.1 = a := by simpa using h
    exact ⟨m.2, hr⟩

theorem Hd.mem {r : Re α} {s : Str} {m : α × Str} (h : Hd r s m) : m ∈ r s := List.mem_of_mem_head? h

theorem first_none {r : Re α} {s : Str} (h : r s = []) : first r s = none := by simp [first, h]

theorem first_eq_none {r : Re α} {s : Str} : first r s = none ↔ r s = [] := by
  simp [first, List.head?_eq_none_iff]

theorem mem_seq {r : Re α} {f : α → Re β} {s : Str} {m : β × Str} :
    m ∈ seq r f s ↔ ∃ a t, (a, t) ∈ r s ∧ m ∈ f a t := by
  simp [seq, List.mem_flatMap]

theorem Hd.seq {r : Re α} {f : α → Re β} {s : Str} {m : α × Str} {x : β × Str} (h : Hd r s m)
    (h2 : Hd (f m.1) m.2 x) : Hd (seq r f) s x := by
  unfold Hd at *
  unfold Re.seq
  cases hr : r s with
  | nil => rw [hr] at h; simp at h
  | cons y l =>
    rw [hr] at h
    obtain rfl : y = m := by simpa using h
    rw [List.flatMap_cons, List.head?_append, h2]
    rfl

theorem head?_flatMap {γ δ : Type} {l : List γ} {f : γ → List δ} {x : δ} (h : (l.flatMap f).head? = some x) :
    ∃ l₁ m l₂, l = l₁ ++ m :: l₂ ∧ (∀ y ∈ l₁, f y = []) ∧ (f m).head? = some x := by
  induction l with
  | nil => simp at h
  | cons y l ih =>
    rw [List.flatMap_cons, List.head?_append] at h
    cases hy : (f y).head? with
    | none =>
      rw [hy] at h
      obtain ⟨l₁, m, l₂, rfl, h1, h2⟩ := ih (by simpa using h)
      refine ⟨y :: l₁, m, l₂, rfl, ?_, h2⟩
      intro z hz
      rcases List.mem_cons.1 hz with rfl | hz
      · exact List.head?_eq_none_iff.1 hy
      · exact h1 z hz
    | some v =>
      rw [hy] at h
      obtain rfl : v = x := by simpa using h
      exact ⟨[], y, l, rfl, by simp, hy⟩

/-- Where the first match comes from. -/
theorem Hd.of_seq {r : Re α} {f : α → Re β} {s : Str} {x : β × Str} (h : Hd (Re.seq r f) s x) :
    ∃ l₁ m l₂, r s = l₁ ++ m :: l₂ ∧ (∀ y ∈ l₁, f y.1 y.2 = []) ∧ Hd (f m.1) m.2 x :=
  head?_flatMap h

theorem Hd.alt_left {r₁ r₂ : Re α} {s : Str} {m : α × Str} (h : Hd r₁ s m) : Hd (alt r₁ r₂) s m := by
  unfold Hd at *
  simp [alt, List.head?_append, h]

theorem Hd.alt_right {r₁ r₂ : Re α} {s : Str} {m : α × Str} (h₁ : r₁ s = []) (h : Hd r₂ s m) :
    Hd (alt r₁ r₂) s m := by
  unfold Hd at *
  simp [alt, h₁, h]

theorem Hd.opt_some {r : Re α} {s : Str} {m : α × Str} (h : Hd r s m) : Hd (opt r) s (some m.1, m.2) := by
  unfold Hd at *
  simp [opt, List.head?_append, h]

theorem Hd.opt_none {r : Re α} {s : Str} (h : r s = []) : Hd (opt r) s (none, s) := by
  unfold Hd
  simp [opt, h]

theorem Hd.ret (a : α) (s : Str) : Hd (Re.ret a) s (a, s) := rfl

theorem Hd.one {p : Char → Bool} {c : Char} {s : Str} (h : p c = true) : Hd (one p) (c :: s) (c, s) := by
  simp [Hd, Re.one, h]

theorem one_nil {p : Char → Bool} {s : Str} (h : ∀ c, s.head? = some c → p c = false) : one p s = [] := by
  cases s with
  | nil => rfl
  | cons c s => simp [one, h c rfl]

theorem Hd.lit (l s : Str) : Hd (lit l) (l ++ s) ((), s) := by
  induction l with
  | nil => rfl
  | cons c l ih => simpa [Hd, Re.lit] using ih

theorem mem_lit {l s t : Str} {u : Unit} : (u, t) ∈ lit l s ↔ s = l ++ t := by
  induction l generalizing s with
  | nil => cases s <;> simp [lit, eq_comm]
  | cons c l ih =>
    cases s with
    | nil => simp [lit]
    | cons d s =>
      by_cases h : c = d
      · simp [lit, h, ih]
      · simp [lit, h, Ne.symm h]

theorem lit_nil {l s : Str} (h : ¬ l <+: s) : lit l s = [] := by
  rw [List.eq_nil_iff_forall_not_mem]
  rintro ⟨u, t⟩ hm
  exact h ⟨t, (mem_lit.1 hm).symm⟩

theorem mem_one {p : Char → Bool} {c : Char} {s t : Str} : (c, t) ∈ one p s ↔ s = c :: t ∧ p c = true := by
  cases s with
  | nil => simp [one]
  | cons d s =>
    by_cases h : p d
    · simp only [one, h, if_true, List.mem_singleton, Prod.mk.injEq, List.cons.injEq]
      constructor
      · rintro ⟨rfl, rfl⟩; exact ⟨⟨rfl, rfl⟩, h⟩
      · rintro ⟨⟨rfl, rfl⟩, -⟩; exact ⟨rfl, rfl⟩
    · simp only [one, h]
      simp
      rintro rfl rfl
      simpa using h

theorem mem_star {p : Char → Bool} {a s t : Str} : (a, t) ∈ star p s ↔ s = a ++ t ∧ ∀ c ∈ a, p c = true := by
  induction s generalizing a with
  | nil =>
    simp only [star, List.mem_singleton, Prod.mk.injEq]
    constructor
    · rintro ⟨rfl, rfl⟩; simp
    · rintro ⟨h, -⟩
      obtain ⟨rfl, rfl⟩ := List.append_eq_nil_iff.1 h.symm
      exact ⟨rfl, rfl⟩
  | cons c s ih =>
    by_cases h : p c
    · simp only [star, h, if_true, List.mem_append, List.mem_map, List.mem_singleton, Prod.mk.injEq]
      constructor
      · rintro (⟨⟨a', t'⟩, hm, rfl, rfl⟩ | ⟨rfl, rfl⟩)
        · obtain ⟨rfl, hall⟩ := ih.1 hm
          refine ⟨rfl, ?_⟩
          intro x hx
          rcases List.mem_cons.1 hx with rfl | hx
          · exact h
          · exact hall x hx
        · simp
      · rintro ⟨heq, hall⟩
        cases a with
        | nil => right; exact ⟨rfl, by simpa using heq.symm⟩
        | cons d a =>
          left
          obtain ⟨rfl, rfl⟩ := List.cons.inj heq
          exact ⟨(a, t), ih.2 ⟨rfl, fun x hx => hall x (by simp [hx])⟩, rfl, rfl⟩
    · simp only [star, h, List.mem_singleton, Prod.mk.injEq]
      constructor
      · intro hm
        obtain ⟨rfl, rfl⟩ : a = [] ∧ t = c :: s := by simpa using hm
        simp
      · rintro ⟨heq, hall⟩
        cases a with
        | nil => simpa using heq.symm
        | cons d a =>
          obtain ⟨rfl, rfl⟩ := List.cons.inj heq
          exact absurd (hall c (by simp)) h

theorem mem_lazyStar {p : Char → Bool} {a s t : Str} :
    (a, t) ∈ lazyStar p s ↔ s = a ++ t ∧ ∀ c ∈ a, p c = true := by
  rw [← mem_star]
  induction s generalizing a t with
  | nil => rfl
  | cons c s ih =>
    by_cases h : p c
    · simp only [lazyStar, star, h, if_true, List.mem_append, List.mem_map, List.mem_cons, List.mem_singleton,
        List.not_mem_nil, or_false]
      constructor
      · rintro (h | ⟨⟨a', t'⟩, h1, h2⟩)
        · exact .inr h
        · exact .inl ⟨(a', t'), ih.1 h1, h2⟩
      · rintro (⟨⟨a', t'⟩, h1, h2⟩ | h)
        · exact .inr ⟨(a', t'), ih.2 h1, h2⟩
        · exact .inl h
    · simp [lazyStar, star, h]

theorem mem_opt {r : Re α} {s t : Str} {a : Option α} :
    (a, t) ∈ opt r s ↔ (∃ b, a = some b ∧ (b, t) ∈ r s) ∨ (a = none ∧ t = s) := by
  simp only [opt, List.mem_append, List.mem_map, List.mem_singleton, Prod.mk.injEq]
  constructor
  · rintro (⟨⟨b, t'⟩, hm, rfl, rfl⟩ | h)
    · exact .inl ⟨b, rfl, hm⟩
    · exact .inr h
  · rintro (⟨b, rfl, hm⟩ | h)
    · exact .inl ⟨(b, t), hm, rfl, rfl⟩
    · exact .inr h

theorem mem_optC {p : Char → Bool} {s t a : Str} :
    (a, t) ∈ optC p s ↔ (∃ c, a = [c] ∧ p c = true ∧ s = c :: t) ∨ (a = [] ∧ t = s) := by
  simp only [optC, List.mem_append, List.mem_map, List.mem_singleton, Prod.mk.injEq]
  constructor
  · rintro (⟨⟨b, t'⟩, hm, rfl, rfl⟩ | h)
    · exact .inl ⟨b, rfl, (mem_one.1 hm).2, (mem_one.1 hm).1⟩
    · exact .inr h
  · rintro (⟨c, rfl, hp, rfl⟩ | h)
    · exact .inl ⟨(c, t), mem_one.2 ⟨rfl, hp⟩, rfl, rfl⟩
    · exact .inr h

theorem mem_lazyOptC {p : Char → Bool} {s t a : Str} :
    (a, t) ∈ lazyOptC p s ↔ (∃ c, a = [c] ∧ p c = true ∧ s = c :: t) ∨ (a = [] ∧ t = s) := by
  simp only [lazyOptC, List.mem_cons, List.mem_map, Prod.mk.injEq]
  constructor
  · rintro (h | ⟨⟨b, t'⟩, hm, rfl, rfl⟩)
    · exact .inr h
    · exact .inl ⟨b, rfl, (mem_one.1 hm).2, (mem_one.1 hm).1⟩
  · rintro (⟨c, rfl, hp, rfl⟩ | h)
    · exact .inr ⟨(c, t), mem_one.2 ⟨rfl, hp⟩, rfl, rfl⟩
    · exact .inl h

theorem mem_eos {s t : Str} {u : Unit} : (u, t) ∈ eos s ↔ t = s ∧ (s = [] ∨ s = ['\n']) := by
  unfold eos
  split_ifs with h
  · simp [h]
  · simp [h]

theorem mem_ret {a b : α} {s t : Str} : (b, t) ∈ ret a s ↔ b = a ∧ t = s := by simp [ret]

theorem mem_alt {r₁ r₂ : Re α} {s : Str} {m : α × Str} : m ∈ alt r₁ r₂ s ↔ m ∈ r₁ s ∨ m ∈ r₂ s := by
  simp [alt]

theorem Hd.eos : Hd eos [] ((), []) := rfl

/-- Greedy repetition takes all it can. -/
theorem Hd.star {p : Char → Bool} {a b : Str} (ha : ∀ c ∈ a, p c = true)
    (hb : ∀ c, b.head? = some c → p c = false) : Hd (star p) (a ++ b) (a, b) := by
  induction a with
  | nil =>
    cases b with
    | nil => rfl
    | cons c s => simp [Hd, Re.star, hb c rfl]
  | cons c a ih =>
    have := ih (fun x hx => ha x (by simp [hx]))
    unfold Hd at *
    simp only [List.cons_append, Re.star, ha c (by simp), if_true, List.head?_append, List.head?_map, this]
    rfl

theorem Hd.star_all {p : Char → Bool} {a : Str} (ha : ∀ c ∈ a, p c = true) : Hd (Re.star p) a (a, []) := by
  have := Hd.star (p := p) (a := a) (b := []) ha (by simp)
  simpa using this

/-- Backtracking: greedy repetition followed by something which cannot match after a longer repetition. -/
theorem Hd.star_seq {p : Char → Bool} {f : Str → Re β} {a b : Str} {x : β × Str} (ha : ∀ c ∈ a, p c = true)
    (hf : ∀ c d, b = c ++ d → c ≠ [] → (∀ y ∈ c, p y = true) → f (a ++ c) d = [])
    (h : Hd (f a) b x) : Hd (Re.seq (Re.star p) f) (a ++ b) x := by
  induction a generalizing f with
  | nil =>
    have key : ∀ l : List (Str × Str), (∀ m ∈ l, m = ([], b) ∨ f m.1 m.2 = []) → ([], b) ∈ l →
        (l.flatMap fun m => f m.1 m.2).head? = some x := by
      intro l hl hm
      induction l with
      | nil => simp at hm
      | cons y l ih =>
        rw [List.flatMap_cons, List.head?_append]
        rcases hl y (by simp) with rfl | hy
        · have : (f [] b).head? = some x := h
          simp [this]
        · rw [hy]
          rcases List.mem_cons.1 hm with rfl | hm
          · exfalso
            unfold Hd at h
            simp only at hy
            rw [hy] at h
            simp at h
          · simpa using ih (fun m hm' => hl m (by simp [hm'])) hm
    refine key _ ?_ (mem_star.2 ⟨rfl, by simp⟩)
    rintro ⟨c, d⟩ hm
    obtain ⟨heq, hall⟩ := mem_star.1 hm
    by_cases hc : c = []
    · subst hc; left; simpa using heq.symm
    · right; exact hf c d (by simpa using heq) hc hall
  | cons c a ih =>
    have hc := ha c (by simp)
    have := ih (f := fun l => f (c :: l)) (fun y hy => ha y (by simp [hy])) (fun u v huv hu hall => by
      simpa using hf u v huv hu hall) h
    unfold Hd Re.seq at *
    simp only [List.cons_append, Re.star, hc, if_true, List.flatMap_append, List.flatMap_map, List.head?_append]
    rw [this]
    rfl

/-- Lazy repetition followed by something which cannot match after a shorter repetition. -/
theorem Hd.lazyStar_seq {p : Char → Bool} {f : Str → Re β} {a b : Str} {x : β × Str} (ha : ∀ c ∈ a, p c = true)
    (hf : ∀ c d, a = c ++ d → d ≠ [] → f c (d ++ b) = [])
    (h : Hd (f a) b x) : Hd (Re.seq (Re.lazyStar p) f) (a ++ b) x := by
  induction a generalizing f with
  | nil =>
    have : Hd (Re.lazyStar p) b ([], b) := by
      cases b with
      | nil => rfl
      | cons c s => by_cases hc : p c <;> simp [Hd, Re.lazyStar, hc]
    exact this.seq h
  | cons c a ih =>
    have hc := ha c (by simp)
    have := ih (f := fun l => f (c :: l)) (fun y hy => ha y (by simp [hy])) (fun u v huv hv => by
      subst huv
      exact hf (c :: u) v rfl hv) h
    have h0 := hf [] (c :: a) rfl (by simp)
    unfold Hd Re.seq at *
    simp only [List.cons_append, Re.lazyStar, hc, if_true, List.flatMap_cons, List.flatMap_map, List.head?_append]
    simp only [List.cons_append] at h0
    rw [h0, this]
    rfl

theorem seq_nil {r : Re α} {f : α → Re β} {s : Str} (h : ∀ a t, (a, t) ∈ r s → f a t = []) : seq r f s = [] := by
  unfold seq
  rw [List.flatMap_eq_nil_iff]
  rintro ⟨a, t⟩ hm
  exact h a t hm

end Re
end Unc
