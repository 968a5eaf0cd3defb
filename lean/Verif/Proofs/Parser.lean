import Verif.Model.Basic

/-! # Lemmas about the nom combinators -/

namespace CMacro
namespace Parser

variable {σ α β : Type}

theorem mapOpt_some {p : Parser σ α} {f : α → Option β} {i r : List σ} {a : α} {b : β}
    (h : p i = some (a, r)) (hf : f a = some b) : mapOpt p f i = some (b, r) := by
  simp only [mapOpt, h, hf]

theorem mapOpt_none {p : Parser σ α} {f : α → Option β} {i r : List σ} {a : α}
    (h : p i = some (a, r)) (hf : f a = none) : mapOpt p f i = none := by
  simp only [mapOpt, h, hf]

theorem map_some {p : Parser σ α} {f : α → β} {i r : List σ} {a : α}
    (h : p i = some (a, r)) : map p f i = some (f a, r) := by
  simp only [map, h]

theorem map_none {p : Parser σ α} {f : α → β} {i : List σ} (h : p i = none) : map p f i = none := by
  simp only [map, h]

theorem mapOpt_none' {p : Parser σ α} {f : α → Option β} {i : List σ} (h : p i = none) :
    mapOpt p f i = none := by
  simp only [mapOpt, h]

theorem or_left {p q : Parser σ α} {i : List σ} {x} (h : p i = some x) : or p q i = some x := by
  simp only [or, h]

theorem or_right {p q : Parser σ α} {i : List σ} (h : p i = none) : or p q i = q i := by
  simp only [or, h]

theorem seq_some {p : Parser σ α} {q : Parser σ β} {i r r' : List σ} {a : α} {b : β}
    (h : p i = some (a, r)) (h' : q r = some (b, r')) : seq p q i = some ((a, b), r') := by
  simp only [seq, h, h']

theorem seq_none {p : Parser σ α} {q : Parser σ β} {i : List σ}
    (h : p i = none) : seq p q i = none := by
  simp only [seq, h]

theorem seq_none' {p : Parser σ α} {q : Parser σ β} {i r : List σ} {a : α}
    (h : p i = some (a, r)) (h' : q r = none) : seq p q i = none := by
  simp only [seq, h, h']

theorem preceded_some {p : Parser σ α} {q : Parser σ β} {i r r' : List σ} {a : α} {b : β}
    (h : p i = some (a, r)) (h' : q r = some (b, r')) : preceded p q i = some (b, r') :=
  map_some (seq_some h h')

theorem preceded_none {p : Parser σ α} {q : Parser σ β} {i : List σ}
    (h : p i = none) : preceded p q i = none := map_none (seq_none h)

theorem preceded_none' {p : Parser σ α} {q : Parser σ β} {i r : List σ} {a : α}
    (h : p i = some (a, r)) (h' : q r = none) : preceded p q i = none := map_none (seq_none' h h')

/-- The parser returns a remainder no longer than its input. -/
def Shrinks (p : Parser σ α) : Prop := ∀ i a r, p i = some (a, r) → r.length ≤ i.length

theorem Shrinks.map {p : Parser σ α} (h : Shrinks p) (f : α → β) : Shrinks (map p f) := by
  intro i b r hb
  unfold Parser.map at hb
  split at hb
  · rename_i a r' ha
    simp only [Option.some.injEq, Prod.mk.injEq] at hb
    exact hb.2 ▸ h _ _ _ ha
  · simp at hb

theorem Shrinks.mapOpt {p : Parser σ α} (h : Shrinks p) (f : α → Option β) :
    Shrinks (mapOpt p f) := by
  intro i b r hb
  unfold Parser.mapOpt at hb
  split at hb
  · rename_i a r' ha
    split at hb
    · simp only [Option.some.injEq, Prod.mk.injEq] at hb
      exact hb.2 ▸ h _ _ _ ha
    · simp at hb
  · simp at hb

theorem Shrinks.or {p q : Parser σ α} (h : Shrinks p) (h' : Shrinks q) : Shrinks (or p q) := by
  intro i b r hb
  unfold Parser.or at hb
  split at hb
  · rename_i x hx
    simp only [Option.some.injEq] at hb
    exact h _ _ _ (hb ▸ hx)
  · exact h' _ _ _ hb

theorem Shrinks.seq {p : Parser σ α} {q : Parser σ β} (h : Shrinks p) (h' : Shrinks q) :
    Shrinks (seq p q) := by
  intro i b r hb
  unfold Parser.seq at hb
  split at hb
  · rename_i a r' ha
    split at hb
    · rename_i b' r'' hb'
      simp only [Option.some.injEq, Prod.mk.injEq] at hb
      have h1 := h _ _ _ ha
      have h2 := h' _ _ _ hb'
      rw [← hb.2]; omega
    · simp at hb
  · simp at hb

theorem Shrinks.preceded {p : Parser σ α} {q : Parser σ β} (h : Shrinks p) (h' : Shrinks q) :
    Shrinks (preceded p q) := (h.seq h').map _

theorem Shrinks.terminated {p : Parser σ α} {q : Parser σ β} (h : Shrinks p) (h' : Shrinks q) :
    Shrinks (terminated p q) := (h.seq h').map _

theorem Shrinks.opt {p : Parser σ α} (h : Shrinks p) : Shrinks (opt p) := by
  intro i b r hb
  unfold Parser.opt at hb
  split at hb
  · rename_i a r' ha
    simp only [Option.some.injEq, Prod.mk.injEq] at hb
    exact hb.2 ▸ h _ _ _ ha
  · simp only [Option.some.injEq, Prod.mk.injEq] at hb
    rw [hb.2]; exact Nat.le_refl _

theorem Shrinks.satisfy (f : σ → Bool) : Shrinks (satisfy f) := by
  intro i b r hb
  cases i with
  | nil => simp [Parser.satisfy] at hb
  | cons c i =>
    simp only [Parser.satisfy] at hb
    split at hb
    · simp only [Option.some.injEq, Prod.mk.injEq] at hb
      rw [← hb.2]; simp
    · simp at hb

theorem Shrinks.tag [DecidableEq σ] : ∀ t : List σ, Shrinks (tag t) := by
  intro t
  induction t with
  | nil => intro i b r hb; simp only [Parser.tag, Option.some.injEq, Prod.mk.injEq] at hb; simp [hb.2]
  | cons c t ih =>
    intro i b r hb
    cases i with
    | nil => simp [Parser.tag] at hb
    | cons d i =>
      simp only [Parser.tag] at hb
      split at hb
      · have := ih _ _ _ hb; simp; omega
      · simp at hb

theorem Shrinks.takeWhile1 (f : σ → Bool) : Shrinks (takeWhile1 f) := by
  intro i b r hb
  unfold Parser.takeWhile1 at hb
  split at hb
  · simp at hb
  · simp only [Option.some.injEq, Prod.mk.injEq] at hb
    rw [← hb.2]
    exact (List.dropWhile_suffix f).length_le

theorem Shrinks.manyMN (m : Nat) {p : Parser σ α} (h : Shrinks p) :
    ∀ n k, Shrinks (manyMN m p n k) := by
  intro n
  induction n with
  | zero =>
    intro k i b r hb
    simp only [Parser.manyMN] at hb
    split at hb
    · simp at hb
    · simp only [Option.some.injEq, Prod.mk.injEq] at hb; simp [hb.2]
  | succ n ih =>
    intro k i b r hb
    simp only [Parser.manyMN] at hb
    split at hb
    · split at hb
      · simp at hb
      · simp only [Option.some.injEq, Prod.mk.injEq] at hb; simp [hb.2]
    · rename_i a r' ha
      split at hb
      · rename_i as r'' has
        simp only [Option.some.injEq, Prod.mk.injEq] at hb
        have h1 := h _ _ _ ha
        have h2 := ih _ _ _ _ has
        rw [← hb.2]; omega
      · simp at hb

theorem many0F_fuel {p : Parser σ α} (h : Shrinks p) : ∀ n m i, i.length < n → i.length < m →
    many0F p n i = many0F p m i := by
  intro n
  induction n with
  | zero => intro m i hi; omega
  | succ n ih =>
    intro m i hn hm
    obtain ⟨m, rfl⟩ : ∃ k, m = k + 1 := ⟨m - 1, by omega⟩
    simp only [many0F]
    cases hp : p i with
    | none => rfl
    | some x =>
      obtain ⟨a, r⟩ := x
      have := h _ _ _ hp
      simp only
      split
      · rfl
      · rw [ih m r (by omega) (by omega)]

/-- One round of `many0`. -/
theorem many0_eq {p : Parser σ α} (h : Shrinks p) (i : List σ) :
    many0 p i = match p i with
      | none => some ([], i)
      | some (a, r) => if r.length = i.length then none else
        match many0 p r with
        | some (as, r') => some (a :: as, r')
        | none => none := by
  rw [many0, many0F]
  cases hp : p i with
  | none => rfl
  | some x =>
    obtain ⟨a, r⟩ := x
    have := h _ _ _ hp
    simp only
    split
    · rfl
    · rw [many0, many0F_fuel h i.length (r.length + 1) r (by omega) (by omega)]
      rfl

theorem many0_none {p : Parser σ α} {i : List σ} (h : p i = none) : many0 p i = some ([], i) := by
  rw [many0, many0F, h]

theorem many0_some {p : Parser σ α} (hs : Shrinks p) {i r r' : List σ} {a : α} {as : List α}
    (h : p i = some (a, r)) (hlt : r.length ≠ i.length) (h' : many0 p r = some (as, r')) :
    many0 p i = some (a :: as, r') := by
  rw [many0_eq hs, h]
  simp only [if_neg hlt, h']

theorem Shrinks.many0 {p : Parser σ α} (h : Shrinks p) : Shrinks (many0 p) := by
  have : ∀ k i a r, i.length ≤ k → Parser.many0 p i = some (a, r) → r.length ≤ i.length := by
    intro k
    induction k with
    | zero =>
      intro i a r hk ha
      rw [many0_eq h] at ha
      split at ha
      · simp only [Option.some.injEq, Prod.mk.injEq] at ha; simp [ha.2]
      · rename_i b r' hb
        have := h _ _ _ hb
        rw [if_pos (by omega)] at ha
        simp at ha
    | succ k ih =>
      intro i a r hk ha
      rw [many0_eq h] at ha
      split at ha
      · simp only [Option.some.injEq, Prod.mk.injEq] at ha; simp [ha.2]
      · rename_i b r' hb
        have := h _ _ _ hb
        split at ha
        · simp at ha
        · split at ha
          · rename_i as r'' has
            simp only [Option.some.injEq, Prod.mk.injEq] at ha
            have := ih _ _ _ (by omega) has
            rw [← ha.2]; omega
          · simp at ha
  exact fun i a r ha => this _ i a r (Nat.le_refl _) ha

/-! ## Inversion -/

theorem opt_inv {p : Parser σ α} {i r : List σ} {x : Option α}
    (h : opt p i = some (x, r)) : (x = none ∧ r = i ∧ p i = none) ∨ ∃ a, x = some a ∧ p i = some (a, r) := by
  unfold opt at h
  split at h
  · rename_i a r' ha
    simp only [Option.some.injEq, Prod.mk.injEq] at h
    obtain ⟨rfl, rfl⟩ := h
    exact .inr ⟨a, rfl, ha⟩
  · rename_i hp
    simp only [Option.some.injEq, Prod.mk.injEq] at h
    exact .inl ⟨h.1.symm, h.2.symm, hp⟩

theorem allConsuming_inv {p : Parser σ α} {i r : List σ} {x : α}
    (h : allConsuming p i = some (x, r)) : p i = some (x, []) ∧ r = [] := by
  unfold allConsuming at h
  split at h
  · rename_i a ha
    simp only [Option.some.injEq, Prod.mk.injEq] at h
    exact ⟨by rw [ha, h.1], h.2.symm⟩
  · simp at h

theorem map_inv {p : Parser σ α} {f : α → β} {i r : List σ} {b : β}
    (h : Parser.map p f i = some (b, r)) : ∃ a, p i = some (a, r) ∧ b = f a := by
  unfold Parser.map at h
  split at h
  · rename_i a r' ha
    simp only [Option.some.injEq, Prod.mk.injEq] at h
    obtain ⟨rfl, rfl⟩ := h
    exact ⟨a, ha, rfl⟩
  · simp at h

theorem or_inv {p q : Parser σ α} {i : List σ} {x}
    (h : Parser.or p q i = some x) : p i = some x ∨ (p i = none ∧ q i = some x) := by
  unfold Parser.or at h
  split at h
  · rename_i y hy
    exact .inl (by rw [hy, h])
  · rename_i hy
    exact .inr ⟨hy, h⟩

theorem seq_inv {p : Parser σ α} {q : Parser σ β} {i r : List σ} {x : α × β}
    (h : seq p q i = some (x, r)) : ∃ r', p i = some (x.1, r') ∧ q r' = some (x.2, r) := by
  unfold seq at h
  split at h
  · rename_i a r' ha
    split at h
    · rename_i b r'' hb
      simp only [Option.some.injEq, Prod.mk.injEq] at h
      obtain ⟨rfl, rfl⟩ := h
      exact ⟨r', ha, hb⟩
    · simp at h
  · simp at h

end Parser

theorem Shrinks.tagNoCase : ∀ t : Str, Parser.Shrinks (tagNoCase t) := by
  intro t
  induction t with
  | nil =>
    intro i b r hb
    simp only [CMacro.tagNoCase, Option.some.injEq, Prod.mk.injEq] at hb; simp [hb.2]
  | cons c t ih =>
    intro i b r hb
    cases i with
    | nil => simp [CMacro.tagNoCase] at hb
    | cons d i =>
      simp only [CMacro.tagNoCase] at hb
      split at hb
      · have := ih _ _ _ hb; simp; omega
      · simp at hb

end CMacro
