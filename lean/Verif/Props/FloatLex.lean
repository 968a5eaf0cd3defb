import Verif.Proofs.Float

/-!
# Property C75: recognition of floating constants
-/

namespace CMacro
open Parser Spec

theorem floatSuffix_mem {u : Str} {ty : FloatTy} (h : (u, ty) ∈ floatSuffixes) :
    NoStart (isDigit 10) u ∧ NoStart (fun c => c == 'e' || c == 'E') u ∧
    ∃ s, opt floatSuffix u = some (s, []) ∧ ∀ t : Str, (match s with
      | some .float => LitFloat.float (.parse t)
      | some .longDouble => .longDouble (.parse t)
      | none => .double (.parse t)) = ty.lit (.parse t) := by
  simp only [floatSuffixes, List.mem_cons, Prod.mk.injEq, List.not_mem_nil, or_false] at h
  rcases h with ⟨rfl, rfl⟩ | ⟨rfl, rfl⟩ | ⟨rfl, rfl⟩ | ⟨rfl, rfl⟩ | ⟨rfl, rfl⟩
  · exact ⟨nofun, nofun, none, by decide, fun _ => rfl⟩
  · exact ⟨fun c r h => by cases h; decide, fun c r h => by cases h; decide, some .float, by decide, fun _ => rfl⟩
  · exact ⟨fun c r h => by cases h; decide, fun c r h => by cases h; decide, some .float, by decide, fun _ => rfl⟩
  · exact ⟨fun c r h => by cases h; decide, fun c r h => by cases h; decide, some .longDouble, by decide, fun _ => rfl⟩
  · exact ⟨fun c r h => by cases h; decide, fun c r h => by cases h; decide, some .longDouble, by decide, fun _ => rfl⟩

/-- **C75**: a spelling is read as a floating literal exactly if it is a decimal floating constant of C with or without a suffix; the
suffix gives the type, and the text before it the value. -/
theorem C75_float_constants (s : Str) (f : LitFloat) :
    Lit.tryFrom s = some (.float f) ↔
      ∃ t u ty, s = t ++ u ∧ DecFloat t ∧ (u, ty) ∈ floatSuffixes ∧ f = ty.lit (.parse t) := by
  constructor
  · intro h
    obtain ⟨⟨l, r⟩, h1, h2⟩ := Option.map_eq_some_iff.1 h
    simp only at h2
    subst h2
    replace h1 := (allConsuming_inv h1).1
    rcases or_inv h1 with h2 | ⟨-, h2⟩
    · obtain ⟨_, _, h3⟩ := map_inv h2; cases h3
    rcases or_inv h2 with h2 | ⟨-, h2⟩
    · obtain ⟨_, _, h3⟩ := map_inv h2; cases h3
    rcases or_inv h2 with h2 | ⟨-, h2⟩
    · obtain ⟨f', h3, h4⟩ := map_inv h2
      cases h4
      obtain ⟨⟨t, sf⟩, h5, rfl⟩ := map_inv h3
      obtain ⟨r', h6, h7⟩ := seq_inv h5
      obtain ⟨h8, h9⟩ := floatRepr_inv h6
      refine ⟨t, r', ?_⟩
      simp only at h7 h8 h9
      rcases opt_inv h7 with ⟨rfl, rfl, _⟩ | ⟨x, rfl, h10⟩
      · exact ⟨.double, h8, h9, by decide, rfl⟩
      · rcases or_inv h10 with h10 | ⟨-, h10⟩
        · obtain ⟨_, h11, rfl⟩ := map_inv h10
          rcases tagNoCase_letter (K := 'F') (by decide) (by decide) h11 with rfl | rfl <;>
            exact ⟨.float, h8, h9, by decide, rfl⟩
        · obtain ⟨_, h11, rfl⟩ := map_inv h10
          rcases tagNoCase_letter (K := 'L') (by decide) (by decide) h11 with rfl | rfl <;>
            exact ⟨.longDouble, h8, h9, by decide, rfl⟩
    · obtain ⟨_, _, h3⟩ := map_inv h2; cases h3
  · rintro ⟨t, u, ty, rfl, ht, hu, rfl⟩
    obtain ⟨h1, h2, s, h3, h4⟩ := floatSuffix_mem hu
    have h5 := map_some (f := fun (x : Str × Option FloatSuffix) => match x.2 with
      | some .float => LitFloat.float (.parse x.1)
      | some .longDouble => .longDouble (.parse x.1)
      | none => .double (.parse x.1)) (seq_some (decFloat_repr ht h1 h2) h3)
    have h6 : LitFloat.parseStr (t ++ u) = some (ty.lit (.parse t), []) := by
      rw [← h4 t]; exact h5
    have h7 : Lit.parseStr (t ++ u) = or (map LitFloat.parseStr Lit.float) (map LitInt.parseStr Lit.int) (t ++ u) := by
      obtain ⟨c, r, rfl, rfl | hc⟩ := decFloat_head ht
      · exact lit_dot_head _
      · exact lit_digit_head hc _
    rw [or_left (map_some (f := Lit.float) h6)] at h7
    simp [Lit.tryFrom, allConsuming, h7]

/-- `12.e-3F`. -/
example : Lit.tryFrom c!"12.e-3F" = some (.float (.float (.parse c!"12.e-3"))) :=
  (C75_float_constants _ _).2 ⟨c!"12.e-3", c!"F", .float, rfl,
    .fraction (a := c!"12") (b := []) (x := c!"e-3") (by unfold Decimal; decide) (by unfold Decimal; decide) (by decide)
      (.inr (.mk (sign := c!"-") (ds := c!"3") (.inl rfl) (by decide) (by unfold Decimal; decide) (by decide))), by decide, rfl⟩

/-- The text denotes `12 * 10 ^ -3`. -/
example : decimal c!"12.e-3" = 12 / 1000 ∧ decimal c!".5" = 1 / 2 ∧ decimal c!"12.50" = 25 / 2 ∧ decimal c!"25E+2" = 2500 := by
  decide +kernel

/-- Hexadecimal floating constants are not read, nor is `314f`, which the documentation of `LitFloat` gives as an example. -/
example : Lit.tryFrom c!"0x1p3" = none ∧ Lit.tryFrom c!"314f" = none ∧ Lit.tryFrom c!"." = none ∧ Lit.tryFrom c!"1e" = none := by
  decide +kernel

end CMacro
