import Verif.Proofs.Eval

/-!
# C93: calls of macros compute the function of the values of their arguments
-/

namespace CMacro
open Spec (Op Def Table IsIdent Eval Closed)

/-- **C93**: let `name` be defined as an expression over names and calls of macros, and let its value be `v`, computed from the
values of the definitions and the values of the arguments, without replacing text.  Then expanding, parsing and generating give
the constant `v`. -/
theorem C93 (C : Ctx) (L : C.env.Lawful) (h : List Op) (hP : Spec.Plain (Spec.cName C.env) (Table.run h))
    (hB : Spec.NoBackslash (Table.run h)) (name : Str) (hn : IsIdent C.env.xidStart C.env.xidContinue name) (body : List Str)
    (hdef : Table.run h name = some (.var body)) (v : Int)
    (hv : Eval C.env.xidStart C.env.xidContinue (Table.run h) [name] (fun _ => none) 12 body v) : MakesConst C h name [.int v []] none := by
  obtain ⟨_, ss, h1, _, ts, e, h2, h3, h4, _⟩ := evaluates L hv [] [] boundBy_nil
  rw [filled_nil] at h1
  exact C59_constant_has_c_value C L h name body hn hP hB hdef ss h1 ts h2 e h3 v h4

/-- The same for definitions `h'` that agree on all words that can come up. -/
theorem C93_elsewhere (C : Ctx) (L : C.env.Lawful) (hd : ∀ s, '"' ∈ C.env.debugFmt s) (h h' : List Op) (T : Str → Prop)
    (hT : Closed T (Table.run h)) (hs : ∀ n, T n → Table.run h n = Table.run h' n) (hP : Spec.Plain (Spec.cName C.env) (Table.run h))
    (hB : Spec.NoBackslash (Table.run h)) (name : Str) (hn : IsIdent C.env.xidStart C.env.xidContinue name) (hTn : T name) (body : List Str)
    (hdef : Table.run h' name = some (.var body)) (v : Int)
    (hv : Eval C.env.xidStart C.env.xidContinue (Table.run h) [name] (fun _ => none) 12 body v) : MakesConst C h' name [.int v []] none := by
  obtain ⟨N, hN⟩ := C93 C L h hP hB name hn body ((hs name hTn).trans hdef) v hv
  refine ⟨N, fun n hn' => ?_⟩
  have := hN n hn'
  unfold pipeVar at this ⊢
  rw [← (C90 C.env L hd T h h' hT hs n).2.1 name hTn]
  exact this

/-! `#define ALIGN(x, a) (((x) + (a) - ONE()) / (a) * (a))`, `#define ONE() 1`, `#define KB(n) ((n) * 1024)`,
`#define BUF ALIGN(KB(3) + 1, KB(2 + 2))`: `BUF` is 4096. -/

def alignOps : List Op :=
  [.defineVar c!"BUF" [c!"ALIGN", c!"(", c!"KB", c!"(", c!"3", c!")", c!"+", c!"1", c!",", c!"KB", c!"(", c!"2", c!"+", c!"2", c!")", c!")"],
   .defineFn c!"ALIGN" [c!"x", c!"a"] [c!"(", c!"(", c!"(", c!"x", c!")", c!"+", c!"(", c!"a", c!")", c!"-", c!"ONE", c!"(", c!")", c!")", c!"/",
     c!"(", c!"a", c!")", c!"*", c!"(", c!"a", c!")", c!")"],
   .defineFn c!"ONE" [] [c!"1"],
   .defineFn c!"KB" [c!"n"] [c!"(", c!"(", c!"n", c!")", c!"*", c!"1024", c!")"]]

theorem alignOps_noBackslash : Spec.NoBackslash (Table.run alignOps) := by
  refine noBackslash_of ?_
  intro id d hd
  rcases run_mem hd with ⟨b, rfl, h⟩ | ⟨p, b, rfl, h⟩ <;> simp [alignOps] at h
  · obtain ⟨rfl, rfl⟩ := h
    decide
  · rcases h with ⟨rfl, rfl, rfl⟩ | ⟨rfl, rfl, rfl⟩ | ⟨rfl, rfl, rfl⟩ <;> decide

theorem alignOps_plain : Spec.Plain (Spec.cName asciiEnv) (Table.run alignOps) := by
  have h := plain_of_check (E := asciiEnv) (h := alignOps) (by decide +kernel)
  refine ⟨h.var, fun id params body hd => ?_⟩
  obtain ⟨h1, h2, named, h3, h4, h5⟩ := h.fn id params body hd
  refine ⟨h1, h2, named, h3, h4, fun p hp => ⟨?_, (h5 p hp).2⟩⟩
  rw [cName_eq]
  · exact (h5 p hp).1
  · have hp' : p ∈ params := by rcases h3 with rfl | rfl <;> simp [hp]
    rcases run_mem hd with ⟨b, h, _⟩ | ⟨_, b, h, hm⟩
    · cases h
    · cases h
      simp [alignOps] at hm
      rcases hm with ⟨rfl, rfl, rfl⟩ | ⟨rfl, rfl, rfl⟩ | ⟨rfl, rfl, rfl⟩
      · simp only [List.mem_cons, List.not_mem_nil, or_false] at hp'
        rcases hp' with rfl | rfl <;> decide
      · cases hp'
      · rw [List.mem_singleton.1 hp']; decide

example (C : Ctx) (hC : C.env = asciiEnv) : MakesConst C alignOps c!"BUF" [.int 4096 []] none := by
  have up : ∀ {S ρ ℓ ss v}, Eval asciiEnv.xidStart asciiEnv.xidContinue (Table.run alignOps) S ρ ℓ ss v → ∀ k, ℓ + k ≤ 12 →
      Eval asciiEnv.xidStart asciiEnv.xidContinue (Table.run alignOps) S ρ (ℓ + k) ss v := by
    intro S ρ ℓ ss v h k
    induction k with
    | zero => exact fun _ => h
    | succ k ih => exact fun hk => .up (ih (by omega)) (show ℓ + k < 12 by omega)
  have digit : ∀ {S ρ} (d : Nat) (c : Char), 0 < d → d < 10 → c.toNat = 48 + d →
      Eval asciiEnv.xidStart asciiEnv.xidContinue (Table.run alignOps) S ρ 0 [[c]] d := by
    intro S ρ d c h0 hd hc
    have := Eval.lit (start := asciiEnv.xidStart) (cont := asciiEnv.xidContinue) (D := Table.run alignOps) (S := S) (ρ := ρ) (t := []) (ty := none)
      (.dec (ds := [d]) (s := [c]) (.cons ⟨hd, .inl ⟨hd, hc⟩⟩ .nil) (by simp) (by
        intro h
        simp only [List.head?_cons, Option.some.injEq] at h
        subst h
        revert hc
        rw [show '0'.toNat = 48 from rfl]
        omega)) (by simp [Spec.positional]; omega) (by decide)
    simpa [Spec.positional] using this
  have kilo : ∀ {S ρ}, Eval asciiEnv.xidStart asciiEnv.xidContinue (Table.run alignOps) S ρ 0 [c!"1024"] (1024 : Nat) :=
    .lit (s := c!"1024") (t := []) (ty := none) (.dec (ds := [1, 0, 2, 4])
      (.cons ⟨by decide, .inl (by decide)⟩ (.cons ⟨by decide, .inl (by decide)⟩ (.cons ⟨by decide, .inl (by decide)⟩ (.cons ⟨by decide, .inl (by decide)⟩ .nil))))
      (by decide) (by decide)) (by decide) (by decide)
  have hkb : ∀ (a : List Str) (v : Int), 0 ≤ v → v ≤ 1000 →
      Eval asciiEnv.xidStart asciiEnv.xidContinue (Table.run alignOps) [c!"BUF"] (fun _ => none) 12 a v →
      Eval asciiEnv.xidStart asciiEnv.xidContinue (Table.run alignOps) [c!"BUF"] (fun _ => none) 0 (c!"KB" :: c!"(" :: (a ++ [c!")"])) (v * 1024) := by
    intro a v h0 h1 h
    refine .call (args := [a]) (vs := [v]) (by simp only [IsIdent]; decide) (by decide) rfl (by decide) rfl
      (by intro p hp; rw [List.mem_singleton.1 hp]; simp only [IsIdent]; decide) (by simp) rfl rfl ?_ ?_
    · intro i b u hb hu
      cases i with
      | zero => simp at hb hu; subst hb hu; exact h
      | succ i => simp at hb
    · have hp : Eval asciiEnv.xidStart asciiEnv.xidContinue (Table.run alignOps) (c!"KB" :: [c!"BUF"]) (Spec.bindParams [c!"n"] [v]) 0
          [c!"(", c!"n", c!")"] v := .paren (ss := [c!"n"]) (.param rfl)
      exact .paren (up (.bin (ℓ := 2) (p := c!"*") (op := .mul) (by decide) (up hp 3 (by decide)) (up kilo 2 (by decide)) .mul
        (by unfold Spec.I128; omega)) 9 (by decide))
  have h1 := hkb [c!"3"] 3 (by decide) (by decide) (up (digit 3 '3' (by decide) (by decide) rfl) 12 (by decide))
  have h2 := hkb [c!"2", c!"+", c!"2"] 4 (by decide) (by decide) (up (.bin (ℓ := 3) (p := c!"+") (op := .add) (ss := [c!"2"]) (by decide)
    (up (digit 2 '2' (by decide) (by decide) rfl) 4 (by decide)) (up (digit 2 '2' (by decide) (by decide) rfl) 3 (by decide)) .add
    (by unfold Spec.I128; decide)) 8 (by decide))
  have h3 := Eval.bin (ℓ := 3) (p := c!"+") (op := .add) (by decide) (up h1 4 (by decide))
    (up (digit 1 '1' (by decide) (by decide) rfl) 3 (by decide)) .add (by unfold Spec.I128; decide)
  have hv : Eval asciiEnv.xidStart asciiEnv.xidContinue (Table.run alignOps) [c!"BUF"] (fun _ => none) 0
      (c!"ALIGN" :: c!"(" :: (Spec.commaWords [[c!"KB", c!"(", c!"3", c!")", c!"+", c!"1"], [c!"KB", c!"(", c!"2", c!"+", c!"2", c!")"]] ++ [c!")"]))
      4096 := by
    refine .call (vs := [3073, 4096]) (by simp only [IsIdent]; decide) (by decide) rfl (by decide) rfl ?_ (by simp) rfl rfl ?_ ?_
    · intro p hp
      simp only [List.mem_cons, List.not_mem_nil, or_false] at hp
      rcases hp with rfl | rfl <;> simp only [IsIdent] <;> decide
    · intro i b u hb hu
      match i with
      | 0 => simp at hb hu; subst hb hu; exact up h3 8 (by decide)
      | 1 => simp at hb hu; subst hb hu; exact up h2 12 (by decide)
      | i + 2 => simp at hb
    · have hx : Eval asciiEnv.xidStart asciiEnv.xidContinue (Table.run alignOps) (c!"ALIGN" :: [c!"BUF"])
          (Spec.bindParams [c!"x", c!"a"] [3073, 4096]) 0 [c!"(", c!"x", c!")"] 3073 := .paren (ss := [c!"x"]) (.param rfl)
      have ha : Eval asciiEnv.xidStart asciiEnv.xidContinue (Table.run alignOps) (c!"ALIGN" :: [c!"BUF"])
          (Spec.bindParams [c!"x", c!"a"] [3073, 4096]) 0 [c!"(", c!"a", c!")"] 4096 := .paren (ss := [c!"a"]) (.param rfl)
      have h1 : Eval asciiEnv.xidStart asciiEnv.xidContinue (Table.run alignOps) (c!"ALIGN" :: [c!"BUF"])
          (Spec.bindParams [c!"x", c!"a"] [3073, 4096]) 0 [c!"ONE", c!"(", c!")"] (1 : Nat) :=
        .call0 (body := [c!"1"]) (by simp only [IsIdent]; decide) (by decide) rfl (by decide) rfl (digit 1 '1' (by decide) (by decide) rfl)
      have s1 := Eval.bin (ℓ := 3) (p := c!"+") (op := .add) (by decide) (up hx 4 (by decide)) (up ha 3 (by decide)) .add (by unfold Spec.I128; decide)
      have s2 := Eval.bin (ℓ := 3) (p := c!"-") (op := .sub) (by decide) s1 (up h1 3 (by decide)) .sub (by unfold Spec.I128; decide)
      have s3 := Eval.bin (ℓ := 2) (p := c!"/") (op := .div) (by decide) (up (.paren (up s2 8 (by decide))) 3 (by decide)) (up ha 2 (by decide))
        (.div (q := 1) (r := 3072) (by decide) (by decide) (by decide) (.inr (by decide))) (by unfold Spec.I128; decide)
      have s4 := Eval.bin (ℓ := 2) (p := c!"*") (op := .mul) (by decide) s3 (up ha 2 (by decide)) .mul (by unfold Spec.I128; decide)
      exact .paren (up s4 9 (by decide))
  refine C93 C (by rw [hC]; exact asciiEnv_lawful) alignOps (by rw [hC]; exact alignOps_plain) alignOps_noBackslash c!"BUF"
    (by rw [hC]; simp only [IsIdent]; decide) _ rfl _ ?_
  rw [hC]
  exact up hv 12 (by decide)

end CMacro
