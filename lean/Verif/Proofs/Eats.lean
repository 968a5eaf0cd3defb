import Verif.Model.ParseStmt

/-!
# What a parser consumes

`Eats S p`: the parser `p` returns a suffix of its input, and the tokens before it satisfy `S`.
-/

namespace CMacro
open Parser

/-- `p` returns a suffix of its input and consumes only items in `S`. -/
def Eats {σ α : Type} (S : σ → Prop) (p : Parser σ α) : Prop :=
  ∀ i a r, p i = some (a, r) → ∃ c, i = c ++ r ∧ ∀ t ∈ c, S t

namespace Eats
variable {σ α β γ : Type} {S : σ → Prop}

theorem fail : Eats S (fun _ => none : Parser σ α) := by intro i a r h; cases h

theorem map {p : Parser σ α} (h : Eats S p) (f : α → β) : Eats S (map p f) := by
  intro i b r hb
  unfold Parser.map at hb
  split at hb
  · rename_i ha; cases hb; exact h _ _ _ ha
  · cases hb

theorem mapOpt {p : Parser σ α} (h : Eats S p) (f : α → Option β) : Eats S (mapOpt p f) := by
  intro i b r hb
  unfold Parser.mapOpt at hb
  split at hb
  · rename_i ha
    split at hb
    · cases hb; exact h _ _ _ ha
    · cases hb
  · cases hb

theorem or {p q : Parser σ α} (h : Eats S p) (h' : Eats S q) : Eats S (or p q) := by
  intro i b r hb
  unfold Parser.or at hb
  split at hb
  · rename_i hx; cases hb; exact h _ _ _ hx
  · exact h' _ _ _ hb

/-- Two parsers after one another. -/
theorem chain {p : Parser σ α} {q : Parser σ β} (hp : Eats S p) (hq : Eats S q) {i r1 r : List σ} {a : α} {b : β}
    (h1 : p i = some (a, r1)) (h2 : q r1 = some (b, r)) : ∃ c, i = c ++ r ∧ ∀ t ∈ c, S t := by
  obtain ⟨c, rfl, hc⟩ := hp _ _ _ h1
  obtain ⟨d, rfl, hd⟩ := hq _ _ _ h2
  refine ⟨c ++ d, by simp, fun t ht => ?_⟩
  rcases List.mem_append.1 ht with h | h
  · exact hc t h
  · exact hd t h

theorem seq {p : Parser σ α} {q : Parser σ β} (h : Eats S p) (h' : Eats S q) : Eats S (seq p q) := by
  intro i b r hb
  unfold Parser.seq at hb
  split at hb
  · rename_i ha
    split at hb
    · rename_i hb'
      cases hb
      obtain ⟨c, rfl, hc⟩ := h _ _ _ ha
      obtain ⟨d, rfl, hd⟩ := h' _ _ _ hb'
      refine ⟨c ++ d, by simp, fun t ht => ?_⟩
      rcases List.mem_append.1 ht with h | h
      · exact hc t h
      · exact hd t h
    · cases hb
  · cases hb

theorem preceded {p : Parser σ α} {q : Parser σ β} (h : Eats S p) (h' : Eats S q) : Eats S (preceded p q) := (h.seq h').map _

theorem terminated {p : Parser σ α} {q : Parser σ β} (h : Eats S p) (h' : Eats S q) : Eats S (terminated p q) := (h.seq h').map _

theorem delimited {p : Parser σ α} {q : Parser σ β} {o : Parser σ γ} (h : Eats S p) (h' : Eats S q) (h'' : Eats S o) :
    Eats S (delimited p q o) := (h.preceded h').terminated h''

theorem value {p : Parser σ α} (h : Eats S p) (v : β) : Eats S (value v p) := h.map _

theorem opt {p : Parser σ α} (h : Eats S p) : Eats S (opt p) := by
  intro i b r hb
  unfold Parser.opt at hb
  split at hb
  · rename_i ha; cases hb; exact h _ _ _ ha
  · cases hb; exact ⟨[], rfl, by simp⟩

theorem eof : Eats S (eof : Parser σ Unit) := by
  intro i b r hb
  unfold Parser.eof at hb
  split at hb
  · rename_i h; cases hb; exact ⟨[], by simpa using h, by simp⟩
  · cases hb

theorem allConsuming {p : Parser σ α} (h : Eats S p) : Eats S (allConsuming p) := by
  intro i b r hb
  unfold Parser.allConsuming at hb
  split at hb
  · rename_i ha; cases hb; exact h _ _ _ ha
  · cases hb

theorem many0F {p : Parser σ α} (h : Eats S p) : ∀ n, Eats S (many0F p n)
  | 0 => fail
  | n + 1 => by
    intro i b r hb
    unfold Parser.many0F at hb
    split at hb
    · cases hb; exact ⟨[], rfl, by simp⟩
    · rename_i ha
      split at hb
      · cases hb
      · split at hb
        · rename_i hm
          cases hb
          obtain ⟨c, rfl, hc⟩ := h _ _ _ ha
          obtain ⟨d, rfl, hd⟩ := many0F h n _ _ _ hm
          refine ⟨c ++ d, by simp, fun t ht => ?_⟩
          rcases List.mem_append.1 ht with h | h
          · exact hc t h
          · exact hd t h
        · cases hb

theorem many0 {p : Parser σ α} (h : Eats S p) : Eats S (many0 p) := by
  intro i b r hb
  exact h.many0F _ _ _ _ hb

theorem sepList0 {p : Parser σ α} {q : Parser σ β} (h : Eats S q) (h' : Eats S p) : Eats S (sepList0 q p) := by
  intro i b r hb
  unfold Parser.sepList0 at hb
  split at hb
  · cases hb; exact ⟨[], rfl, by simp⟩
  · rename_i ha
    split at hb
    · rename_i hm
      cases hb
      obtain ⟨c, rfl, hc⟩ := h' _ _ _ ha
      obtain ⟨d, rfl, hd⟩ := (h.preceded h').many0 _ _ _ hm
      refine ⟨c ++ d, by simp, fun t ht => ?_⟩
      rcases List.mem_append.1 ht with h | h
      · exact hc t h
      · exact hd t h
    · cases hb

theorem permStep : ∀ {ps : List (Parser σ α × Option α)}, (∀ x ∈ ps, Eats S x.1) → ∀ {i : List σ} {ps' r},
    permStep ps i = some (ps', r) → (∀ x ∈ ps', Eats S x.1) ∧ ∃ c, i = c ++ r ∧ ∀ t ∈ c, S t
  | [], _, i, ps', r, h => by cases h
  | (p, some a) :: ps, hp, i, ps', r, h => by
    unfold Parser.permStep at h
    split at h
    · rename_i hs
      cases h
      obtain ⟨h1, h2⟩ := permStep (fun x hx => hp x (List.mem_cons_of_mem _ hx)) hs
      refine ⟨fun x hx => ?_, h2⟩
      rcases List.mem_cons.1 hx with rfl | hx
      · exact hp _ List.mem_cons_self
      · exact h1 x hx
    · cases h
  | (p, none) :: ps, hp, i, ps', r, h => by
    unfold Parser.permStep at h
    split at h
    · rename_i ha
      cases h
      refine ⟨fun x hx => ?_, hp (p, none) List.mem_cons_self _ _ _ ha⟩
      rcases List.mem_cons.1 hx with rfl | hx
      · exact hp (p, none) List.mem_cons_self
      · exact hp x (List.mem_cons_of_mem _ hx)
    · split at h
      · rename_i hs
        cases h
        obtain ⟨h1, h2⟩ := permStep (fun x hx => hp x (List.mem_cons_of_mem _ hx)) hs
        refine ⟨fun x hx => ?_, h2⟩
        rcases List.mem_cons.1 hx with rfl | hx
        · exact hp _ List.mem_cons_self
        · exact h1 x hx
      · cases h

theorem permDone : ∀ {ps : List (Parser σ α × Option α)}, Eats S (permDone ps)
  | [], i, a, r, h => by cases h; exact ⟨[], rfl, by simp⟩
  | (_, some _) :: ps, i, a, r, h => by
    unfold Parser.permDone at h
    split at h
    · rename_i hd; cases h; exact permDone _ _ _ hd
    · cases h
  | (_, none) :: ps, i, a, r, h => by cases h

theorem permGo : ∀ (n : Nat) {ps : List (Parser σ α × Option α)}, (∀ x ∈ ps, Eats S x.1) → Eats S (permGo n ps)
  | 0, ps, _ => permDone
  | n + 1, ps, hp => by
    intro i a r h
    unfold Parser.permGo at h
    split at h
    · rename_i hs
      obtain ⟨h1, c, rfl, hc⟩ := permStep hp hs
      obtain ⟨d, rfl, hd⟩ := permGo n h1 _ _ _ h
      refine ⟨c ++ d, by simp, fun t ht => ?_⟩
      rcases List.mem_append.1 ht with h | h
      · exact hc t h
      · exact hd t h
    · exact permDone _ _ _ h

theorem permutation {ps : List (Parser σ α)} (h : ∀ p ∈ ps, Eats S p) : Eats S (permutation ps) :=
  permGo _ fun x hx => by
    obtain ⟨p, hp, rfl⟩ := List.mem_map.1 hx
    exact h p hp

theorem permutation2 {p q : Parser σ α} (h : Eats S p) (h' : Eats S q) : Eats S (Parser.permutation [p, q]) :=
  permutation (by simp [h, h'])
theorem permutation3 {p q s : Parser σ α} (h : Eats S p) (h' : Eats S q) (h3 : Eats S s) : Eats S (Parser.permutation [p, q, s]) :=
  permutation (by simp [h, h', h3])
theorem permutation4 {p q s t : Parser σ α} (h : Eats S p) (h' : Eats S q) (h3 : Eats S s) (h4 : Eats S t) :
    Eats S (Parser.permutation [p, q, s, t]) :=
  permutation (by simp [h, h', h3, h4])
theorem permutation5 {p q s t u : Parser σ α} (h : Eats S p) (h' : Eats S q) (h3 : Eats S s) (h4 : Eats S t) (h5 : Eats S u) :
    Eats S (Parser.permutation [p, q, s, t, u]) :=
  permutation (by simp [h, h', h3, h4, h5])

end Eats

/-- A parser of one token. -/
theorem Eats.one {S : MacroToken → Prop} {α : Type} {f : MacroToken → Option α} (h : ∀ t a, f t = some a → S t) :
    Eats S (Parser.mapOpt takeOne f) := by
  intro i a r hi
  cases i with
  | nil => cases hi
  | cons t i =>
    unfold Parser.mapOpt at hi
    simp only [takeOne, satisfy, if_true] at hi
    split at hi
    · rename_i hf
      cases hi
      exact ⟨[t], rfl, by simpa using h t a hf⟩
    · cases hi

end CMacro
