import Verif.Proofs.Compose

/-!
# C92: constants defined by other constants
-/

namespace CMacro
open Spec (Op Def Table IsIdent CText ConstText Constants Closed)

/-- **C92**: let `val` give the values of constants that are defined one by the other, each by a literal, another constant or an
expression in parentheses; let the words of the definition of `name` be an expression of the value `v` if these constants have these
values.  Then expanding, parsing and generating give the constant `v`, whatever else is defined. -/
theorem C92 (C : Ctx) (L : C.env.Lawful) (hd : ∀ s, '"' ∈ C.env.debugFmt s) (h : List Op)
    (hN : ∀ x d, Table.run h x = some d → IsIdent C.env.xidStart C.env.xidContinue x) (val : Str → Option Int) (rank : Str → Nat)
    (hK : Constants C.env.xidStart C.env.xidContinue (Table.run h) val rank) (name : Str) (body : List Str)
    (hdef : Table.run h name = some (.var body)) (v : Int) (ht : ConstText val 12 body v)
    (hr : ∀ w ∈ body, val w ≠ none → rank w < rank name) : MakesConst C h name [.int v []] none := by
  classical
  have hn := hN name _ hdef
  let p : Str → Bool := fun x => decide (val x ≠ none ∨ x = name)
  have hp : ∀ x, p x = true ↔ (val x ≠ none ∨ x = name) := fun x => decide_eq_true_iff
  have hrun := run_filter p h
  -- every definition that counts is a constant expression
  have hwords : ∀ x d, p x = true → Table.run h x = some d →
      ∃ b, d = .var b ∧ ∀ w ∈ b, val w ≠ none ∨ NoName C.env w := by
    intro x d hx hxd
    rcases (hp x).1 hx with hx | rfl
    · cases hv : val x with
      | none => exact absurd hv hx
      | some u =>
        obtain ⟨b, hb, hc, _⟩ := hK.defined x u hv
        exact ⟨b, Option.some.inj (hxd.symm.trans hb), constText_words L hc⟩
    · exact ⟨body, Option.some.inj (hxd.symm.trans hdef), constText_words L ht⟩
  have hword : ∀ w, (val w ≠ none ∨ NoName C.env w) →
      '\\' ∉ w ∧ w ≠ c!"#" ∧ w ≠ c!"##" ∧ w ≠ c!"__VA_ARGS__" := by
    rintro w (hw | hw)
    · cases hv : val w with
      | none => exact absurd hv hw
      | some u =>
        have hi := hK.ident w u hv
        refine ⟨noEscape_ident L hi.1, ?_, ?_, hi.2⟩
        · rintro rfl
          obtain ⟨h | h, _⟩ := hi.1
          · rw [L.startAscii _ (by decide)] at h; revert h; decide
          · revert h; decide
        · rintro rfl
          obtain ⟨h | h, _⟩ := hi.1
          · rw [L.startAscii _ (by decide)] at h; revert h; decide
          · revert h; decide
    · exact ⟨hw.2.1, hw.2.2.1, hw.2.2.2.1, hw.2.2.2.2⟩
  have hdefs : ∀ x d, Table.run (h.filter fun o => p o.name) x = some d →
      ∃ b, d = .var b ∧ ∀ w ∈ b, '\\' ∉ w ∧ w ≠ c!"#" ∧ w ≠ c!"##" ∧ w ≠ c!"__VA_ARGS__" := by
    intro x d hx
    rw [hrun] at hx
    by_cases hpx : p x = true
    · rw [if_pos hpx] at hx
      obtain ⟨b, hb, hw⟩ := hwords x d hpx hx
      exact ⟨b, hb, fun w hm => hword w (hw w hm)⟩
    · rw [if_neg hpx] at hx; cases hx
  have hK' : Constants C.env.xidStart C.env.xidContinue (Table.run (h.filter fun o => p o.name)) val rank := by
    refine ⟨hK.ident, fun x u hx => ?_⟩
    obtain ⟨b, hb, hc⟩ := hK.defined x u hx
    refine ⟨b, ?_, hc⟩
    rw [hrun, if_pos ((hp x).2 (.inl (by rw [hx]; simp)))]
    exact hb
  have hdef' : Table.run (h.filter fun o => p o.name) name = some (.var body) := by
    rw [hrun, if_pos ((hp name).2 (.inr rfl))]
    exact hdef
  have hP : Spec.Plain (Spec.cName C.env) (Table.run (h.filter fun o => p o.name)) := by
    refine ⟨fun x b hx => ?_, fun x ps b hx => ?_⟩
    · obtain ⟨b', hb, hw⟩ := hdefs x _ hx
      cases hb
      refine ⟨fun s hs => ⟨(hw s hs).2.1, (hw s hs).2.2.1, ?_, ?_⟩, fun hm => (hw _ hm).2.2.2 rfl⟩
      · exact fun hpre => (hw s hs).1 (hpre.subset List.mem_cons_self)
      · exact fun hpre => (hw s hs).1 (hpre.subset List.mem_cons_self)
    · obtain ⟨b', hb, _⟩ := hdefs x _ hx
      cases hb
  have hB : Spec.NoBackslash (Table.run (h.filter fun o => p o.name)) := by
    refine noBackslash_of fun x d hx s hs => ?_
    obtain ⟨b, rfl, hw⟩ := hdefs x d hx
    exact (hw s hs).1
  obtain ⟨ss, ts, e, h1, h2, h3, h4, _⟩ := readsAs L hK' (rank name) ht [name] hr (by
    intro x hx
    rw [List.mem_singleton.1 hx]
    exact Nat.le_refl _)
  obtain ⟨N, hN'⟩ := C59_constant_has_c_value C L _ name body hn hP hB hdef' ss h1 ts h2 e h3 v h4
  -- other definitions do not matter
  let T : Str → Prop := fun w => val w ≠ none ∨ w = name ∨ NoName C.env w
  have hT : Closed T (Table.run h) := by
    refine ⟨fun x d hx hxd w hw => ?_, fun hx => ?_, fun w hw hm => ?_⟩
    · have hpx : p x = true := by
        refine (hp x).2 ?_
        rcases hx with hx | hx | hx
        · exact .inl hx
        · exact .inr hx
        · exact absurd (hN x d hxd) hx.1
      obtain ⟨b, rfl, hb⟩ := hwords x d hpx hxd
      rcases hb w hw with hw | hw
      · exact .inl hw
      · exact .inr (.inr hw)
    · exfalso
      rcases hx with hx | hx | hx
      · exact (hword _ (.inl hx)).2.2.1 rfl
      · rw [← hx] at hn
        obtain ⟨h | h, _⟩ := hn
        · rw [L.startAscii _ (by decide)] at h; revert h; decide
        · revert h; decide
      · exact hx.2.2.2.1 rfl
    · exfalso
      rcases hw with hw | hw | hw
      · exact (hword _ (.inl hw)).1 hm
      · rw [hw] at hm
        exact noEscape_ident L hn hm
      · exact hw.2.1 hm
  have hs : ∀ x, T x → Table.run h x = Table.run (h.filter fun o => p o.name) x := by
    intro x hx
    rw [hrun]
    by_cases hpx : p x = true
    · rw [if_pos hpx]
    · rw [if_neg hpx]
      rcases hx with hx | hx | hx
      · exact absurd ((hp x).2 (.inl hx)) hpx
      · exact absurd ((hp x).2 (.inr hx)) hpx
      · cases hd' : Table.run h x with
        | none => rfl
        | some d => exact absurd (hN x d hd') hx.1
  refine ⟨N, fun n hn' => ?_⟩
  have := hN' n hn'
  unfold pipeVar at this ⊢
  rw [((C90 C.env L hd T h _ hT hs n).2.1 name (.inr (.inl rfl)))]
  exact this

/-- The constants themselves have the values `val` gives. -/
theorem C92_constants (C : Ctx) (L : C.env.Lawful) (hd : ∀ s, '"' ∈ C.env.debugFmt s) (h : List Op)
    (hN : ∀ x d, Table.run h x = some d → IsIdent C.env.xidStart C.env.xidContinue x) (val : Str → Option Int) (rank : Str → Nat)
    (hK : Constants C.env.xidStart C.env.xidContinue (Table.run h) val rank) (x : Str) (v : Int) (hx : val x = some v) :
    MakesConst C h x [.int v []] none := by
  obtain ⟨body, hb, hc, hr⟩ := hK.defined x v hx
  have up : ∀ k, k ≤ 12 → ConstText val k body v := by
    intro k
    induction k with
    | zero => exact fun _ => hc
    | succ k ih => exact fun hk => .up (ih (by omega)) (by omega)
  exact C92 C L hd h hN val rank hK x body hb v (up 12 (Nat.le_refl _)) hr

/-! `#define SHIFT 12`, `#define PAGE (1UL << SHIFT)`, `#define HUGE (PAGE * 0x200)`, `#define SAME HUGE`,
`#define LAST SAME - (PAGE) - 1`, between macros that paste and quote: `LAST` is 2093055. -/

def pageOps : List Op :=
  [.defineVar c!"LAST" [c!"SAME", c!"-", c!"(", c!"PAGE", c!")", c!"-", c!"1"],
   .defineFn c!"glue" [c!"a", c!"b"] [c!"a", c!"##", c!"b"],
   .defineVar c!"PAGE" [c!"(", c!"1UL", c!"<<", c!"SHIFT", c!")"],
   .defineVar c!"SHIFT" [c!"12"],
   .defineFn c!"log" [c!"..."] [c!"puts", c!"(", c!"#", c!"__VA_ARGS__", c!")"],
   .defineVar c!"SAME" [c!"HUGE"],
   .defineVar c!"HUGE" [c!"(", c!"PAGE", c!"*", c!"0x200", c!")"]]

def pageVal (s : Str) : Option Int :=
  if s = c!"SHIFT" then some 12 else if s = c!"PAGE" then some 4096 else if s = c!"HUGE" then some 2097152
  else if s = c!"SAME" then some 2097152 else none

def pageRank (s : Str) : Nat :=
  if s = c!"SHIFT" then 0 else if s = c!"PAGE" then 1 else if s = c!"HUGE" then 2 else if s = c!"SAME" then 3 else 4

def decLit (val : Str → Option Int) {s : Str} {ds : List Nat} (h : Spec.Digits 10 ds s) (hn : s ≠ []) (h0 : s.head? ≠ some '0')
    (hv : Spec.positional 10 ds < 2 ^ 127) : ConstText val 0 [s] (Spec.positional 10 ds) := by
  have := ConstText.lit (val := val) (t := []) (ty := none) (Spec.IntConst.dec h hn h0) hv (by decide)
  rwa [List.append_nil] at this

theorem page_constants : Constants asciiEnv.xidStart asciiEnv.xidContinue (Table.run pageOps) pageVal pageRank := by
  have up : ∀ {ℓ ss v}, ConstText pageVal ℓ ss v → ∀ k, ℓ + k ≤ 12 → ConstText pageVal (ℓ + k) ss v := by
    intro ℓ ss v h k
    induction k with
    | zero => exact fun _ => h
    | succ k ih => exact fun hk => .up (ih (by omega)) (show ℓ + k < 12 by omega)
  refine ⟨fun x v hx => ?_, fun x v hx => ?_⟩
  · unfold pageVal at hx
    split at hx
    · subst x; exact ⟨by simp only [IsIdent]; decide, by decide⟩
    split at hx
    · subst x; exact ⟨by simp only [IsIdent]; decide, by decide⟩
    split at hx
    · subst x; exact ⟨by simp only [IsIdent]; decide, by decide⟩
    split at hx
    · subst x; exact ⟨by simp only [IsIdent]; decide, by decide⟩
    · cases hx
  · unfold pageVal at hx
    split at hx
    · subst x; cases hx
      refine ⟨_, rfl, ?_, by decide⟩
      exact decLit pageVal (ds := [1, 2]) (.cons ⟨by decide, .inl (by decide)⟩ (.cons ⟨by decide, .inl (by decide)⟩ .nil)) (by decide) (by decide) (by decide)
    split at hx
    · subst x; cases hx
      refine ⟨_, rfl, ?_, by decide⟩
      have h1 : ConstText pageVal 0 [c!"1UL"] (1 : Nat) :=
        .lit (s := c!"1") (t := c!"UL") (ty := some .uLong) (.dec (ds := [1]) (.cons ⟨by decide, .inl (by decide)⟩ .nil) (by decide) (by decide)) (by decide) (by decide)
      have h2 : ConstText pageVal 0 [c!"SHIFT"] (12 : Nat) := .name (by decide)
      exact .paren (up (.bin (ℓ := 4) (p := c!"<<") (op := .shl) (by decide) (up h1 5 (by decide)) (up h2 4 (by decide))
        (.shl (by decide)) (by unfold Spec.I128; decide)) 7 (by decide))
    split at hx
    · subst x; cases hx
      refine ⟨_, rfl, ?_, by decide⟩
      have h1 : ConstText pageVal 0 [c!"PAGE"] 4096 := .name (by decide)
      have h2 : ConstText pageVal 0 [c!"0x200"] (512 : Nat) :=
        .lit (s := c!"0x200") (t := []) (ty := none) (.hex (x := 'x') (ds := [2, 0, 0]) (.inl rfl)
          (.cons ⟨by decide, .inl (by decide)⟩ (.cons ⟨by decide, .inl (by decide)⟩ (.cons ⟨by decide, .inl (by decide)⟩ .nil))) (by decide)) (by decide) (by decide)
      exact .paren (up (.bin (ℓ := 2) (p := c!"*") (op := .mul) (by decide) (up h1 3 (by decide)) (up h2 2 (by decide))
        .mul (by unfold Spec.I128; decide)) 9 (by decide))
    split at hx
    · subst x; cases hx
      exact ⟨_, rfl, .name (by decide), by decide⟩
    · cases hx

theorem page_names (x : Str) (d : Def) (h : Table.run pageOps x = some d) : IsIdent asciiEnv.xidStart asciiEnv.xidContinue x := by
  have h' : x ∈ pageOps.map Op.name := by
    by_cases hm : x ∈ pageOps.map Op.name
    · exact hm
    · have : ∀ (h : List Op) (t : Table), x ∉ h.map Op.name → h.foldl Table.step t x = t x := by
        intro h
        induction h with
        | nil => intro t _; rfl
        | cons o h ih =>
          intro t hm
          rw [List.foldl_cons, ih _ fun hx => hm (List.mem_cons_of_mem _ hx)]
          exact step_other _ _ _ fun hx => hm (by rw [← hx]; exact List.mem_cons_self)
      rw [Table.run, this _ _ hm] at h
      cases h
  have : ∀ y ∈ pageOps.map Op.name, IsIdent asciiEnv.xidStart asciiEnv.xidContinue y := by
    simp only [pageOps, List.map, Op.name, List.forall_mem_cons]
    refine ⟨?_, ?_, ?_, ?_, ?_, ?_, ?_, by simp⟩ <;> simp only [IsIdent] <;> decide
  exact this x h'

example (C : Ctx) (hC : C.env = asciiEnv) : MakesConst C pageOps c!"LAST" [.int 2093055 []] none := by
  have up : ∀ {ℓ ss v}, ConstText pageVal ℓ ss v → ∀ k, ℓ + k ≤ 12 → ConstText pageVal (ℓ + k) ss v := by
    intro ℓ ss v h k
    induction k with
    | zero => exact fun _ => h
    | succ k ih => exact fun hk => .up (ih (by omega)) (show ℓ + k < 12 by omega)
  have h1 : ConstText pageVal 0 [c!"SAME"] 2097152 := .name (by decide)
  have h2 : ConstText pageVal 0 [c!"(", c!"PAGE", c!")"] 4096 := .paren (up (.name (x := c!"PAGE") (by decide)) 12 (by decide))
  have h3 : ConstText pageVal 0 [c!"1"] (1 : Nat) :=
    decLit pageVal (ds := [1]) (.cons ⟨by decide, .inl (by decide)⟩ .nil) (by decide) (by decide) (by decide)
  have h4 := ConstText.bin (ℓ := 3) (p := c!"-") (op := .sub) (by decide) (up h1 4 (by decide)) (up h2 3 (by decide)) .sub (by unfold Spec.I128; decide)
  have h5 := ConstText.bin (ℓ := 3) (p := c!"-") (op := .sub) (by decide) h4 (up h3 3 (by decide)) .sub (by unfold Spec.I128; decide)
  exact C92 C (by rw [hC]; exact asciiEnv_lawful) (by rw [hC]; exact ascii_quotes) pageOps (by rw [hC]; exact page_names) pageVal pageRank
    (by rw [hC]; exact page_constants) c!"LAST" _ rfl _ (up h5 8 (by decide)) (by decide)

end CMacro
