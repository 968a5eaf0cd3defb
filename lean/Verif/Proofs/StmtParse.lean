import Verif.Spec.Statements
import Verif.Props.Logic
import Verif.Proofs.GramParse
import Verif.Props.Types

/-!
# The statement parser reads the statement grammar
-/

namespace CMacro
open Parser
open Spec (Name TypeName Gram DeclType ExprStart asmStarts staticWord semi branch GParams GStmt GStmts)

/-! ## Types before a name -/

/-- The parser does not look at the token `t`, or fails on both. -/
def Swaps (t t' : MacroToken) (r : List MacroToken) {α : Type} (p : TParser α) : Prop :=
  ∀ i, (p (i ++ t :: r) = none ∧ p (i ++ t' :: r) = none) ∨
    ∃ a j, p (i ++ t :: r) = some (a, j ++ t :: r) ∧ p (i ++ t' :: r) = some (a, j ++ t' :: r)

variable {t t' : MacroToken} {r : List MacroToken} {α β : Type}

theorem Swaps.keyword {k : Str} (h : t ≠ .ident k) (h' : t' ≠ .ident k) : Swaps t t' r (keyword k) := by
  have key : ∀ {t : MacroToken}, t ≠ .ident k → CMacro.keyword k (t :: r) = none := by
    intro t ht
    cases t <;> first | rfl | skip
    exact keyword_ne (by rintro rfl; exact ht rfl)
  intro i
  cases i with
  | nil => exact .inl ⟨key h, key h'⟩
  | cons x i =>
    cases x <;> first | exact .inl ⟨rfl, rfl⟩ | skip
    rename_i x
    by_cases hx : x = k
    · subst hx
      exact .inr ⟨(), i, keyword_self, keyword_self⟩
    · exact .inl ⟨keyword_ne hx, keyword_ne hx⟩

theorem Swaps.map {p : TParser α} (h : Swaps t t' r p) (f : α → β) : Swaps t t' r (map p f) := by
  intro i
  rcases h i with ⟨h1, h2⟩ | ⟨a, j, h1, h2⟩
  · exact .inl ⟨by simp only [Parser.map, h1], by simp only [Parser.map, h2]⟩
  · exact .inr ⟨f a, j, by simp only [Parser.map, h1], by simp only [Parser.map, h2]⟩

theorem Swaps.value {p : TParser α} (h : Swaps t t' r p) (v : β) : Swaps t t' r (value v p) := h.map _

theorem Swaps.mapOpt {p : TParser α} (h : Swaps t t' r p) (f : α → Option β) : Swaps t t' r (mapOpt p f) := by
  intro i
  rcases h i with ⟨h1, h2⟩ | ⟨a, j, h1, h2⟩
  · exact .inl ⟨by simp only [Parser.mapOpt, h1], by simp only [Parser.mapOpt, h2]⟩
  · cases hf : f a with
    | none => exact .inl ⟨by simp only [Parser.mapOpt, h1, hf], by simp only [Parser.mapOpt, h2, hf]⟩
    | some b => exact .inr ⟨b, j, by simp only [Parser.mapOpt, h1, hf], by simp only [Parser.mapOpt, h2, hf]⟩

theorem Swaps.or {p q : TParser α} (h : Swaps t t' r p) (h' : Swaps t t' r q) : Swaps t t' r (Parser.or p q) := by
  intro i
  rcases h i with ⟨h1, h2⟩ | ⟨a, j, h1, h2⟩
  · simp only [Parser.or, h1, h2]
    exact h' i
  · exact .inr ⟨a, j, by simp only [Parser.or, h1], by simp only [Parser.or, h2]⟩

theorem Swaps.opt {p : TParser α} (h : Swaps t t' r p) : Swaps t t' r (opt p) := by
  intro i
  rcases h i with ⟨h1, h2⟩ | ⟨a, j, h1, h2⟩
  · exact .inr ⟨none, i, by simp only [Parser.opt, h1], by simp only [Parser.opt, h2]⟩
  · exact .inr ⟨some a, j, by simp only [Parser.opt, h1], by simp only [Parser.opt, h2]⟩

theorem Swaps.seq {p : TParser α} {q : TParser β} (h : Swaps t t' r p) (h' : Swaps t t' r q) : Swaps t t' r (seq p q) := by
  intro i
  rcases h i with ⟨h1, h2⟩ | ⟨a, j, h1, h2⟩
  · exact .inl ⟨by simp only [Parser.seq, h1], by simp only [Parser.seq, h2]⟩
  · rcases h' j with ⟨h3, h4⟩ | ⟨b, k, h3, h4⟩
    · exact .inl ⟨by simp only [Parser.seq, h1, h3], by simp only [Parser.seq, h2, h4]⟩
    · exact .inr ⟨(a, b), k, by simp only [Parser.seq, h1, h3], by simp only [Parser.seq, h2, h4]⟩

theorem Swaps.terminated {p : TParser α} {q : TParser β} (h : Swaps t t' r p) (h' : Swaps t t' r q) :
    Swaps t t' r (terminated p q) := (h.seq h').map _

theorem swaps_permStep {ps : List (TParser α × Option α)} (h : ∀ x ∈ ps, Swaps t t' r x.1) (i : List MacroToken) :
    (permStep ps (i ++ t :: r) = none ∧ permStep ps (i ++ t' :: r) = none) ∨
    ∃ qs j, permStep ps (i ++ t :: r) = some (qs, j ++ t :: r) ∧ permStep ps (i ++ t' :: r) = some (qs, j ++ t' :: r) ∧
      ∀ x ∈ qs, Swaps t t' r x.1 := by
  induction ps with
  | nil => exact .inl ⟨rfl, rfl⟩
  | cons x ps ih =>
    obtain ⟨p, o⟩ := x
    have ih := ih fun x hx => h x (by simp [hx])
    have hp : Swaps t t' r p := h (p, o) (by simp)
    have rest : ∀ o : Option α, (permStep ps (i ++ t :: r) = none ∧ permStep ps (i ++ t' :: r) = none) ∨
        ∃ qs j, permStep ps (i ++ t :: r) = some (qs, j ++ t :: r) ∧ permStep ps (i ++ t' :: r) = some (qs, j ++ t' :: r) ∧
          ∀ x ∈ (p, o) :: qs, Swaps t t' r x.1 := by
      intro o
      rcases ih with h | ⟨qs, j, h1, h2, h3⟩
      · exact .inl h
      · refine .inr ⟨qs, j, h1, h2, fun x hx => ?_⟩
        rcases List.mem_cons.1 hx with rfl | hx
        · exact hp
        · exact h3 x hx
    cases o with
    | some a =>
      rcases rest (some a) with ⟨h1, h2⟩ | ⟨qs, j, h1, h2, h3⟩
      · exact .inl ⟨by simp only [permStep, h1], by simp only [permStep, h2]⟩
      · exact .inr ⟨(p, some a) :: qs, j, by simp only [permStep, h1], by simp only [permStep, h2], h3⟩
    | none =>
      rcases hp i with ⟨h1, h2⟩ | ⟨a, j, h1, h2⟩
      · rcases rest none with ⟨h3, h4⟩ | ⟨qs, j, h3, h4, h5⟩
        · exact .inl ⟨by simp only [permStep, h1, h3], by simp only [permStep, h2, h4]⟩
        · exact .inr ⟨(p, none) :: qs, j, by simp only [permStep, h1, h3], by simp only [permStep, h2, h4], h5⟩
      · refine .inr ⟨(p, some a) :: ps, j, by simp only [permStep, h1], by simp only [permStep, h2], fun x hx => ?_⟩
        rcases List.mem_cons.1 hx with rfl | hx
        · exact hp
        · exact h x (by simp [hx])

theorem swaps_permDone (ps : List (TParser α × Option α)) : Swaps t t' r (permDone ps) := by
  induction ps with
  | nil => exact fun i => .inr ⟨[], i, rfl, rfl⟩
  | cons x ps ih =>
    obtain ⟨p, o⟩ := x
    cases o with
    | none => exact fun i => .inl ⟨rfl, rfl⟩
    | some a =>
      intro i
      rcases ih i with ⟨h1, h2⟩ | ⟨as, j, h1, h2⟩
      · exact .inl ⟨by simp only [permDone, h1], by simp only [permDone, h2]⟩
      · exact .inr ⟨a :: as, j, by simp only [permDone, h1], by simp only [permDone, h2]⟩

theorem swaps_permGo : ∀ (n : Nat) (ps : List (TParser α × Option α)), (∀ x ∈ ps, Swaps t t' r x.1) → Swaps t t' r (permGo n ps)
  | 0, ps, _ => swaps_permDone ps
  | n + 1, ps, h => by
    intro i
    rcases swaps_permStep h i with ⟨h1, h2⟩ | ⟨qs, j, h1, h2, h3⟩
    · simp only [permGo, h1, h2]
      exact swaps_permDone ps i
    · simp only [permGo, h1, h2]
      exact swaps_permGo n qs h3 j

theorem Swaps.permutation {ps : List (TParser α)} (h : ∀ p ∈ ps, Swaps t t' r p) : Swaps t t' r (permutation ps) := by
  refine swaps_permGo _ _ fun x hx => ?_
  obtain ⟨p, hp, rfl⟩ := List.mem_map.1 hx
  exact h p hp

/-- Not one of the words types are made of. -/
def NoTyWord (t : MacroToken) : Prop := ∀ k ∈ Spec.tyKeywords, t ≠ .ident k

theorem swaps_constVolatile (h : NoTyWord t) (h' : NoTyWord t') : Swaps t t' r constVolatile := by
  have kw : ∀ k ∈ Spec.tyKeywords, Swaps t t' r (CMacro.keyword k) := fun k hk => .keyword (h k hk) (h' k hk)
  unfold constVolatile
  refine .or (.value (.permutation ?_) _) (.or (.value (kw _ (by decide)) _) (.value (kw _ (by decide)) _))
  intro p hp
  simp only [List.mem_cons, List.not_mem_nil, or_false] at hp
  rcases hp with rfl | rfl <;> exact kw _ (by decide)

theorem swaps_simpleTy (h : NoTyWord t) (h' : NoTyWord t') : Swaps t t' r simpleTy := by
  have kw : ∀ k ∈ Spec.tyKeywords, Swaps t t' r (CMacro.keyword k) := fun k hk => .keyword (h k hk) (h' k hk)
  have cv := swaps_constVolatile (r := r) h h'
  unfold simpleTy doubleTy
  exact .map (.seq cv.opt (.or (.value (kw _ (by decide)) _) (.or (.value (kw _ (by decide)) _)
    (.or (.value (kw _ (by decide)) _) (.map (.terminated (.seq (kw _ (by decide)).opt cv.opt) (kw _ (by decide))) _))))) _

theorem swaps_intTy (h : NoTyWord t) (h' : NoTyWord t') : Swaps t t' r intTy := by
  have kp : ∀ k ∈ Spec.tyKeywords, Swaps t t' r (kwPart k) := fun k hk => .value (.keyword (h k hk) (h' k hk)) _
  have cv : Swaps t t' r qualPart := .map (swaps_constVolatile h h').opt _
  have sg : Swaps t t' r (optPart intSignedness) := .map (.opt (.or (kp _ (by decide)) (kp _ (by decide)))) _
  have oi : Swaps t t' r (optPart (kwPart c!"int")) := .map (.opt (kp _ (by decide))) _
  have il : Swaps t t' r intLength := .or (kp _ (by decide)) (kp _ (by decide))
  unfold intTy intTyLongLong intTyLength intTyPlain
  refine .or (.mapOpt (.permutation ?_) _) (.or (.mapOpt (.permutation ?_) _) (.mapOpt (.permutation ?_) _)) <;>
    · intro p hp
      simp only [List.mem_cons, List.not_mem_nil, or_false] at hp
      rcases hp with rfl | rfl | rfl | rfl | rfl <;>
        first | exact cv | exact sg | exact oi | exact il | exact kp _ (by decide) | exact .or (kp _ (by decide)) (kp _ (by decide))

theorem identTy_ident {E : Env} {i r : List MacroToken} {b : BuiltInType} : identTy E i ≠ some (.builtIn b, r) := by
  intro h
  unfold identTy map at h
  split at h
  · rename_i x _ _
    obtain ⟨q, s, id⟩ := x
    cases q <;> simp [Ty.qualifyOpt, Ty.qualify] at h
  · cases h

/-- A built-in type, read up to another token that is no part of a type. -/
theorem tyBase_swap {E : Env} (h : NoTyWord t) (h' : NoTyWord t') {us : List MacroToken} {b : BuiltInType}
    (hb : seq (tyBase E) (opt constVolatile) (us ++ t :: r) = some ((.builtIn b, none), t :: r)) :
    seq (tyBase E) (opt constVolatile) (us ++ t' :: r) = some ((.builtIn b, none), t' :: r) := by
  have hs : Swaps t t' r (Parser.or simpleTy intTy) := (swaps_simpleTy h h').or (swaps_intTy h h')
  have hor : ∀ i, tyBase E i = Parser.or (Parser.or simpleTy intTy) (identTy E) i := by
    intro i
    simp only [tyBase, Parser.or]
    cases simpleTy i <;> rfl
  simp only [seq, hor] at hb ⊢
  rcases hs us with ⟨h1, h2⟩ | ⟨a, j, h1, h2⟩
  · rw [Parser.or, h1] at hb
    dsimp only at hb
    cases hi : identTy E (us ++ t :: r) with
    | none => rw [hi] at hb; cases hb
    | some x =>
      rw [hi] at hb
      obtain ⟨T, r'⟩ := x
      dsimp only at hb
      split at hb
      · simp only [Option.some.injEq, Prod.mk.injEq] at hb
        obtain ⟨⟨rfl, _⟩, _⟩ := hb
        exact absurd hi identTy_ident
      · cases hb
  · rw [Parser.or, h1] at hb
    rw [Parser.or, h2]
    dsimp only at hb ⊢
    rcases (swaps_constVolatile (r := r) h h').opt j with ⟨h3, h4⟩ | ⟨q, k, h3, h4⟩
    · rw [h3] at hb; cases hb
    · rw [h3] at hb
      rw [h4]
      simp only [Option.some.injEq, Prod.mk.injEq] at hb ⊢
      obtain ⟨⟨rfl, rfl⟩, hk⟩ := hb
      have : k = [] := by
        have := congrArg List.length hk
        simp at this
        exact this
      subst this
      exact ⟨⟨rfl, rfl⟩, rfl⟩

theorem Spec.Name.noTyWord {t : MacroToken} {n : IdentExpr} (h : Name t n) : NoTyWord t := by
  intro k hk
  cases h with
  | @ident x hx =>
    intro h
    cases h
    exact hx (by revert k; decide)
  | arg => simp

theorem Spec.Name.starStop {t : MacroToken} {n : IdentExpr} (h : Name t n) : StarStop t := h.tyStop.star

theorem simple_int_none {t : MacroToken} (h : NoTyWord t) (r : List MacroToken) : simpleTy (t :: r) = none ∧ intTy (t :: r) = none := by
  have kw : ∀ k ∈ Spec.tyKeywords, keyword k (t :: r) = none := by
    intro k hk
    cases t <;> first | rfl | skip
    exact keyword_ne (by rintro rfl; exact h _ hk rfl)
  have k1 := kw c!"const" (by decide)
  have k2 := kw c!"volatile" (by decide)
  have k3 := kw c!"void" (by decide)
  have k4 := kw c!"bool" (by decide)
  have k5 := kw c!"float" (by decide)
  have k6 := kw c!"double" (by decide)
  have k7 := kw c!"long" (by decide)
  have k8 := kw c!"short" (by decide)
  have k9 := kw c!"int" (by decide)
  have k10 := kw c!"char" (by decide)
  have k11 := kw c!"unsigned" (by decide)
  have k12 := kw c!"signed" (by decide)
  constructor <;>
  simp [simpleTy, doubleTy, intTy, intTyLongLong, intTyLength, intTyPlain, seq, opt,
      constVolatile, Parser.or, value, permutation, permGo, permStep, permDone,
      map, mapOpt, terminated, k1, k2, k3, k4, k5, k6, k7, k8, k9, k10, k11, k12, qualPart, optPart, intSignedness,
      intLength, kwPart]

/-- The name of a type, before something that does not continue a name. -/
theorem tyBase_name' (E : Env) {t : MacroToken} {n : IdentExpr} (h : Name t n) {r : List MacroToken} (hc : PlainStart r)
    (hh : ∀ r', r ≠ .punct c!"##" :: r') (h1 : ∀ r', r ≠ .ident c!"const" :: r') (h2 : ∀ r', r ≠ .ident c!"volatile" :: r') :
    seq (tyBase E) (opt constVolatile) (t :: r) = some ((.ident n false, none), r) := by
  obtain ⟨ha, hb⟩ := simple_int_none h.noTyWord r
  have hcv : constVolatile (t :: r) = none := by
    refine constVolatile_none (fun r' e => ?_) (fun r' e => ?_) <;> cases e <;> exact h.noTyWord _ (by decide) rfl
  have hst : keyword c!"struct" (t :: r) = none := by
    cases h with
    | ident hx => exact keyword_ne (by rintro rfl; exact hx (by decide))
    | arg => rfl
  have hp : punct c!"##" r = none := by
    cases r with
    | nil => rfl
    | cons x r =>
      cases x <;> first | rfl | skip
      exact punct_ne (by rintro rfl; exact hh _ rfl) _
  have hid : parseConcatIdent E (t :: r) = some (n, r) := by
    have h1 : (Parser.or (map macroArg IdentExpr.arg) (map macroId IdentExpr.plain)) (t :: r) = some (n, r) := by
      cases h <;> rfl
    have h2 : many0 (preceded (delimited «meta» (punct c!"##") «meta») (contPart E)) r = some ([], r) := by
      have : preceded (delimited «meta» (punct c!"##") «meta») (contPart E) r = none := by
        simp only [preceded, delimited, terminated, map, seq, meta_none hc, hp]
      unfold many0 many0F
      rw [this]
    simp only [parseConcatIdent, h1, map, h2, List.foldl_nil]
  simp only [seq, tyBase, Parser.or, ha, hb, identTy, map, opt, hcv, hst, hid, constVolatile_none h1 h2, Ty.qualifyOpt,
    Option.isSome_none]

theorem declType_aux (E : Env) {ts : List MacroToken} {t : Ty} (h : DeclType ts t) {x : MacroToken} {n : IdentExpr} (hx : Name x n)
    (rest : List MacroToken) : ∀ k : Nat,
    parseTy E (ts ++ (List.replicate k (.punct c!"*") ++ x :: rest)) =
      some ((List.replicate k none).foldl Ty.addPtr t, x :: rest) := by
  have builtIn : ∀ {us : List MacroToken} {b : BuiltInType},
      (∀ p r, seq (tyBase E) (opt constVolatile) (us ++ .punct p :: r) = some ((.builtIn b, none), .punct p :: r)) →
      ∀ k, parseTy E (us ++ (List.replicate k (.punct c!"*") ++ x :: rest)) =
        some ((List.replicate k none).foldl Ty.addPtr (.builtIn b), x :: rest) := by
    intro us b hb k
    have : seq (tyBase E) (opt constVolatile) (us ++ (List.replicate k (.punct c!"*") ++ x :: rest)) =
        some ((.builtIn b, none), List.replicate k (.punct c!"*") ++ x :: rest) := by
      cases k with
      | zero => exact tyBase_swap (t := .punct c!")") (by intro k _; simp) hx.noTyWord (hb c!")" rest)
      | succ k => exact hb _ _
    simp only [parseTy, this, map, stars k hx.starStop, Ty.qualifyOpt]
  have tn : ∀ {ts : List MacroToken} {t : Ty}, TypeName ts t → ∀ k : Nat,
      parseTy E (ts ++ (List.replicate k (.punct c!"*") ++ x :: rest)) =
        some ((List.replicate k none).foldl Ty.addPtr t, x :: rest) := by
    intro ts t h
    induction h with
    | int h1 h2 h3 => exact builtIn (intBase E h1 h2 h3)
    | void => exact builtIn fun p r => rfl
    | bool => exact builtIn fun p r => rfl
    | float => exact builtIn fun p r => rfl
    | double => exact builtIn fun p r => rfl
    | @ptr ts t h ih =>
      intro k
      have := ih (k + 1)
      rw [List.replicate_succ, List.cons_append] at this
      rw [List.append_assoc, List.singleton_append, this]
      rfl
  induction h with
  | builtIn h => exact tn h
  | @name y m h =>
    intro k
    have hb : seq (tyBase E) (opt constVolatile) (y :: (List.replicate k (.punct c!"*") ++ x :: rest)) =
        some ((.ident m false, none), List.replicate k (.punct c!"*") ++ x :: rest) := by
      cases k with
      | zero =>
        refine tyBase_name' E h ?_ ?_ ?_ ?_
        · intro s r' e; cases e; exact hx.tyStop.1 _ rfl
        · intro r' e; cases e; cases hx
        · intro r' e; cases e; exact hx.noTyWord _ (by decide) rfl
        · intro r' e; cases e; exact hx.noTyWord _ (by decide) rfl
      | succ k =>
        refine tyBase_name' E h ?_ ?_ ?_ ?_
        · intro s r'; simp [List.replicate_succ]
        · intro r'; simp [List.replicate_succ]
        · intro r'; simp [List.replicate_succ]
        · intro r'; simp [List.replicate_succ]
    simp only [parseTy, List.singleton_append, hb, map, stars k hx.starStop, Ty.qualifyOpt]
  | @ptr ts t h ih =>
    intro k
    have := ih (k + 1)
    rw [List.replicate_succ, List.cons_append] at this
    rw [List.append_assoc, List.singleton_append, this]
    rfl

theorem declType_reads (E : Env) {ts : List MacroToken} {t : Ty} (h : DeclType ts t) {x : MacroToken} {n : IdentExpr} (hx : Name x n)
    (rest : List MacroToken) : parseTy E (ts ++ x :: rest) = some (t, x :: rest) :=
  declType_aux E h hx rest 0

/-! ## Declarations -/

theorem staticTy_eq (E : Env) (i : List MacroToken) : staticTy E i =
    match keyword c!"static" i with
    | some (_, r) => (parseTy E r).map fun (t, r') => ((true, t), r')
    | none => (parseTy E i).map fun (t, r') => ((false, t), r') := by
  unfold staticTy
  cases hk : keyword c!"static" i with
  | some x =>
    obtain ⟨_, r⟩ := x
    cases ht : parseTy E r with
    | none => simp [mapOpt, permutation, permGo, permStep, permDone, map, opt, hk, ht]
    | some y =>
      obtain ⟨t, r'⟩ := y
      simp [mapOpt, permutation, permGo, permStep, permDone, map, opt, hk, ht]
  | none =>
    cases ht : parseTy E i with
    | none => simp [mapOpt, permutation, permGo, permStep, permDone, map, opt, hk, ht]
    | some y =>
      obtain ⟨t, r'⟩ := y
      simp [mapOpt, permutation, permGo, permStep, permDone, map, opt, hk, ht]

/-- The words types are made of are not these. -/
theorem Spec.DeclType.head {ts : List MacroToken} {t : Ty} (h : DeclType ts t) :
    ∃ x u, ts = x :: u ∧ (∀ s, x ≠ .comment s) ∧ (∀ p, x ≠ .punct p) ∧
      ∀ w ∈ [c!"static", c!"if", c!"do", c!"else"], x ≠ .ident w := by
  have tn : ∀ {ts : List MacroToken} {t : Ty}, TypeName ts t → ∃ x u, ts = x :: u ∧ (∀ s, x ≠ .comment s) ∧ (∀ p, x ≠ .punct p) ∧
      ∀ w ∈ [c!"static", c!"if", c!"do", c!"else"], x ≠ .ident w := by
    intro ts t h
    induction h with
    | @int ws t h1 _ _ =>
      have hm := mem_orders h1
      have hall : ∀ x ∈ orders, ∃ w u, x.1 = w :: u ∧ w ∉ [c!"static", c!"if", c!"do", c!"else"] := by
        have : orders.all (fun x => match x.1 with | [] => false | w :: _ => decide (w ∉ [c!"static", c!"if", c!"do", c!"else"])) = true := by
          decide +kernel
        intro x hx
        have := List.all_eq_true.1 this x hx
        cases hw : x.1 with
        | nil => rw [hw] at this; cases this
        | cons w u => rw [hw] at this; exact ⟨w, u, rfl, of_decide_eq_true this⟩
      obtain ⟨w, u, hw, hn⟩ := hall _ hm
      dsimp only at hw
      subst hw
      refine ⟨.ident w, u.map .ident, rfl, by simp, by simp, fun w' hw' e => ?_⟩
      cases e
      exact hn hw'
    | void => exact ⟨_, _, rfl, by simp, by simp, by decide⟩
    | bool => exact ⟨_, _, rfl, by simp, by simp, by decide⟩
    | float => exact ⟨_, _, rfl, by simp, by simp, by decide⟩
    | double => exact ⟨_, _, rfl, by simp, by simp, by decide⟩
    | ptr h ih =>
      obtain ⟨x, u, rfl, h1⟩ := ih
      exact ⟨x, _, rfl, h1⟩
  induction h with
  | builtIn h => exact tn h
  | name h =>
    refine ⟨_, _, rfl, h.tyStop.1, ?_, ?_⟩
    · rintro p rfl; cases h
    · rintro w hw rfl
      cases h with
      | ident hx => exact hx (by revert w; decide)
  | ptr h ih =>
    obtain ⟨x, u, rfl, h1⟩ := ih
    exact ⟨x, _, rfl, h1⟩

theorem keyword_other {k : Str} {t : MacroToken} (h : t ≠ .ident k) (r : List MacroToken) : keyword k (t :: r) = none := by
  cases t <;> first | rfl | skip
  exact keyword_ne (by rintro rfl; exact h rfl)

theorem staticTy_decl (E : Env) (s : Bool) {us : List MacroToken} {t : Ty} (h : DeclType us t) {x : MacroToken} {n : IdentExpr}
    (hx : Name x n) (rest : List MacroToken) : staticTy E (staticWord s ++ (us ++ x :: rest)) = some ((s, t), x :: rest) := by
  rw [staticTy_eq]
  cases s with
  | true => simp only [staticWord, if_true, List.singleton_append, keyword_self, declType_reads E h hx, Option.map_some]
  | false =>
    obtain ⟨y, u, hu, _, _, hw⟩ := h.head
    have : keyword c!"static" (us ++ x :: rest) = none := by
      rw [hu]
      exact keyword_other (hw _ (by decide)) _
    simp only [staticWord, Bool.false_eq_true, if_false, List.nil_append, this, declType_reads E h hx, Option.map_some]

/-- After something that is an expression for certain, no name follows what looks like a type. -/
theorem staticTy_expr (E : Env) {ts : List MacroToken} {e : Expr} (h : Gram 12 ts e) (hs : ExprStart ts) {rest : List MacroToken}
    (hr : rest = [] ∨ ∃ r, rest = .punct c!";" :: r) :
    staticTy E (ts ++ rest) = none ∨ ∃ b T, staticTy E (ts ++ rest) = some (b, T) ∧ (T = [] ∨ ∃ p r, T = .punct p :: r) := by
  obtain ⟨t, u, rfl⟩ : ∃ t u, ts = t :: u := by
    obtain ⟨k, t, u, h, _⟩ := h.start
    cases k with
    | zero => exact ⟨_, _, h⟩
    | succ k => exact ⟨_, _, h⟩
  have hst : keyword c!"static" (t :: u ++ rest) = none := by
    refine keyword_other ?_ _
    rintro rfl
    rcases h.head with ⟨t, n, u, h, hn⟩ | ⟨l, u, h⟩ | ⟨l, u, h⟩ | ⟨u, h⟩
    · cases h
      cases hn with
      | ident hx => exact hx (by decide)
    · cases h
    · cases h
    · simp at h
  rw [staticTy_eq, hst]
  dsimp only
  rcases h.head with ⟨t', n, u', h', hn⟩ | ⟨l, u', h'⟩ | ⟨l, u', h'⟩ | ⟨u', h'⟩
  · cases h'
    right
    have hc : u ++ rest = [] ∨ ∃ p r, u ++ rest = .punct p :: r ∧ p ≠ c!"##" ∧ p ≠ c!"*" := by
      rcases h.cont hn.like rfl with rfl | ⟨k, t', v, rfl, ht', hk⟩
      · rcases hr with rfl | ⟨r, rfl⟩
        · exact .inl rfl
        · exact .inr ⟨_, _, rfl, by decide, by decide⟩
      · cases k with
        | zero =>
          obtain ⟨p, rfl, hp⟩ := hk rfl
          exact .inr ⟨p, _, rfl, hp, fun e => ht'.2.2.1 (by rw [e])⟩
        | succ k => exact absurd rfl (hs.1 _ _ _ hn)
    have hb : seq (tyBase E) (opt constVolatile) (t :: (u ++ rest)) = some ((.ident n false, none), u ++ rest) := by
      refine tyBase_name' E hn ?_ ?_ ?_ ?_
      · intro s r e; rcases hc with hc | ⟨p, r', hc, _⟩ <;> rw [hc] at e <;> cases e
      · intro r e; rcases hc with hc | ⟨p, r', hc, hp, _⟩ <;> rw [hc] at e <;> cases e; exact hp rfl
      · intro r e; rcases hc with hc | ⟨p, r', hc, _⟩ <;> rw [hc] at e <;> cases e
      · intro r e; rcases hc with hc | ⟨p, r', hc, _⟩ <;> rw [hc] at e <;> cases e
    have hstar : many0 (preceded (seq (punct c!"*") «meta») (opt constVolatile)) (u ++ rest) = some ([], u ++ rest) := by
      have : punct c!"*" (u ++ rest) = none := by
        rcases hc with hc | ⟨p, r', hc, _, hp⟩ <;> rw [hc]
        · rfl
        · exact punct_ne (fun e => hp e.symm) _
      unfold many0 many0F
      simp only [preceded, map, seq, this]
    refine ⟨_, u ++ rest, by simp only [List.cons_append, parseTy, hb, map, hstar, Option.map_some, Option.map]; rfl, ?_⟩
    rcases hc with hc | ⟨p, r', hc, _⟩
    · exact .inl hc
    · exact .inr ⟨p, r', hc⟩
  · cases h'
    left
    simp only [List.cons_append, parseTy, seq, tyBase_other E (.inr ⟨_, rfl⟩), Option.map_none]
  · cases h'
    left
    simp only [List.cons_append, parseTy, seq, tyBase_other E (.inl ⟨_, rfl⟩), Option.map_none]
  · cases h'
    right
    obtain ⟨T, hT⟩ := tyBase_name E (.inl ⟨_, rfl, by decide⟩ : NameLike (.ident c!"sizeof")) (show c!"(" ≠ c!"##" by decide) (u' ++ rest)
    have hstar : many0 (preceded (seq (punct c!"*") «meta») (opt constVolatile)) (.punct c!"(" :: (u' ++ rest)) = some ([], .punct c!"(" :: (u' ++ rest)) := by
      unfold many0 many0F
      simp only [preceded, map, seq, punct_ne (show c!"*" ≠ c!"(" by decide)]
    refine ⟨_, .punct c!"(" :: (u' ++ rest), by simp only [List.cons_append, parseTy, hT, map, hstar, Option.map_some, Option.map]; rfl, .inr ⟨_, _, rfl⟩⟩

theorem concatIdent_none (E : Env) {T : List MacroToken} (h : T = [] ∨ ∃ p r, T = .punct p :: r) : parseConcatIdent E T = none := by
  rcases h with rfl | ⟨p, r, rfl⟩ <;> rfl

theorem decls_none (E : Env) {ts : List MacroToken} {e : Expr} (h : Gram 12 ts e) (hs : ExprStart ts) {rest : List MacroToken}
    (hr : rest = [] ∨ ∃ r, rest = .punct c!";" :: r) :
    parseFunctionDecl E (ts ++ rest) = none ∧ parseVarDecl E (ts ++ rest) = none := by
  rcases staticTy_expr E h hs hr with hx | ⟨b, T, hx, hT⟩
  · exact ⟨by simp only [parseFunctionDecl, map, seq, hx], by simp only [parseVarDecl, map, seq, hx]⟩
  · have := concatIdent_none E hT
    exact ⟨by simp only [parseFunctionDecl, map, seq, hx, this], by simp only [parseVarDecl, map, seq, hx, this]⟩

/-! ## Single statements -/

/-- The condition of an `if` or `do`. -/
def condition (E : Env) : TParser Expr := parenthesized (parseExpr E)

theorem single_eq (E : Env) (n : Nat) (i : List MacroToken) : parseSingle E (n + 1) i =
    (Parser.or (map (terminated (parseAsm E) semicolonOrEof) .asm) <|
    Parser.or (map (seq (preceded (terminated (keyword c!"if") «meta») (condition E)) (seq (map (parseSingle E n) Stmt.toBlock)
        (opt (preceded (delimited «meta» (keyword c!"else") «meta») (map (parseSingle E n) Stmt.toBlock)))))
      fun (c, t, f) => .ite c t (f.getD [])) <|
    Parser.or (map (preceded (terminated (keyword c!"do") «meta»)
        (seq (map (parseSingle E n) Stmt.toBlock) (preceded (keyword c!"while") (condition E)))) fun (b, c) => .doWhile b c) <|
    Parser.or (map (delimited (terminated (punct c!"{") «meta») (many0 (preceded «meta» (parseSingle E n)))
        (terminated (preceded «meta» (punct c!"}")) (opt (punct c!";")))) .block) <|
    Parser.or (map (terminated (parseFunctionDecl E) semicolonOrEof) .fnDecl) <|
    Parser.or (map (terminated (parseVarDecl E) semicolonOrEof) .varDecl)
      (map (terminated (parseExpr E) semicolonOrEof) .expr)) i := rfl

theorem asm_none (E : Env) {i : List MacroToken} (h : ∀ w ∈ asmStarts, keyword w i = none) : parseAsm E i = none := by
  simp only [parseAsm, map, preceded, terminated, seq, Parser.or, h c!"asm" (by decide), h c!"__asm" (by decide), h c!"__asm__" (by decide)]

/-- `asm` not followed by a parenthesis. -/
theorem asm_none' (E : Env) {x y : MacroToken} {r : List MacroToken} (hx : ∀ w ∈ [c!"volatile", c!"inline", c!"goto"], y ≠ .ident w)
    (hy : y ≠ .punct c!"(") : parseAsm E (x :: y :: r) = none := by
  have ho : opt (Parser.or (keyword c!"volatile") (Parser.or (keyword c!"inline") (keyword c!"goto"))) (y :: r) = some (none, y :: r) := by
    simp only [opt, Parser.or, keyword_other (hx _ (show c!"volatile" ∈ _ by decide)), keyword_other (hx _ (show c!"inline" ∈ _ by decide)),
      keyword_other (hx _ (show c!"goto" ∈ _ by decide))]
  have hp : punct c!"(" (y :: r) = none := by
    cases y <;> first | rfl | skip
    exact punct_ne (by rintro rfl; exact hy rfl) _
  have hk : ∀ k, keyword k (x :: y :: r) = none ∨ keyword k (x :: y :: r) = some ((), y :: r) := by
    intro k
    by_cases h : x = .ident k
    · subst h; exact .inr keyword_self
    · exact .inl (keyword_other h _)
  have hor : (Parser.or (keyword c!"__asm__") (Parser.or (keyword c!"__asm") (keyword c!"asm"))) (x :: y :: r) = none ∨
      (Parser.or (keyword c!"__asm__") (Parser.or (keyword c!"__asm") (keyword c!"asm"))) (x :: y :: r) = some ((), y :: r) := by
    simp only [Parser.or]
    rcases hk c!"__asm__" with h | h <;> rcases hk c!"__asm" with h' | h' <;> rcases hk c!"asm" with h'' | h'' <;> simp [h, h', h'']
  rcases hor with h | h
  · simp only [parseAsm, map, preceded, terminated, seq, h]
  · simp only [parseAsm, map, preceded, terminated, seq, h, ho, parenthesized, delimited, hp]

/-- What may follow a statement. -/
structure After (b o : Bool) (rest : List MacroToken) : Prop where
  fin : b = false → rest = []
  plain : PlainStart rest
  noSemi : ∀ r, rest ≠ .punct c!";" :: r
  noElse : o = true → ∀ r, rest ≠ .ident c!"else" :: r

theorem semi_reads {b o : Bool} {rest : List MacroToken} (h : After b o rest) :
    semicolonOrEof (semi b ++ rest) = some ((), rest) := by
  cases b with
  | true => simp only [semi, if_true, List.singleton_append, semicolonOrEof, Parser.or, punct_self]
  | false => rw [h.fin rfl]; rfl

theorem semi_end {b o : Bool} {rest : List MacroToken} (h : After b o rest) :
    semi b ++ rest = [] ∨ ∃ r, semi b ++ rest = .punct c!";" :: r := by
  cases b with
  | true => exact .inr ⟨_, rfl⟩
  | false => rw [h.fin rfl]; exact .inl rfl

theorem semi_stop {b o : Bool} {rest : List MacroToken} (h : After b o rest) : Stop (stops 12) (semi b ++ rest) := by
  rcases semi_end h with h | ⟨r, h⟩ <;> rw [h]
  · exact .inl rfl
  · exact .inr ⟨_, _, rfl, by decide⟩

/-- No word of a statement begins an expression. -/
theorem Spec.Gram.noWord {ℓ : Nat} {ts : List MacroToken} {e : Expr} (h : Gram ℓ ts e) {w : Str} (hw : w ∈ Spec.cKeywords) (hs : w ≠ c!"sizeof")
    (r : List MacroToken) : ts ≠ .ident w :: r := by
  rintro rfl
  rcases h.head with ⟨t, n, u, h, hn⟩ | ⟨l, u, h⟩ | ⟨l, u, h⟩ | ⟨u, h⟩
  · cases h
    cases hn with
    | ident hx => exact hx hw
  · cases h
  · cases h
  · simp only [List.cons.injEq, MacroToken.ident.injEq] at h
    exact hs h.1

theorem Spec.Gram.cons {ℓ : Nat} {ts : List MacroToken} {e : Expr} (h : Gram ℓ ts e) : ∃ t u, ts = t :: u := by
  obtain ⟨k, t, u, h, _⟩ := h.start
  cases k with
  | zero => exact ⟨_, _, h⟩
  | succ k => exact ⟨_, _, h⟩

/-- An expression begins with none of these punctuators. -/
theorem Spec.Gram.noBrace {ℓ : Nat} {ts : List MacroToken} {e : Expr} : Gram ℓ ts e → ∀ p ∈ [c!"{", c!"}", c!";"], ∀ r, ts ≠ .punct p :: r := by
  have app : ∀ {ts us : List MacroToken}, (∃ t u, ts = t :: u) → (∀ p ∈ [c!"{", c!"}", c!";"], ∀ r, ts ≠ .punct p :: r) →
      ∀ p ∈ [c!"{", c!"}", c!";"], ∀ r, ts ++ us ≠ .punct p :: r := by
    rintro ts us ⟨t, u, rfl⟩ h p hp r e
    cases e
    exact h p hp _ rfl
  intro h
  match h with
  | .name h => rintro p hp r e; cases e; cases h
  | .lit => rintro p hp r e; cases e
  | .paren _ _ => rintro p hp r e; cases e; simp at hp
  | .sizeOf _ => rintro p hp r e; cases e
  | .call h _ => rintro p hp r e; cases e; cases h
  | .index h _ => exact app h.cons h.noBrace
  | .member h _ => exact app h.cons h.noBrace
  | .arrow h _ => exact app h.cons h.noBrace
  | .postInc h => exact app h.cons h.noBrace
  | .postDec h => exact app h.cons h.noBrace
  | .pre hp _ => rintro p hp' r e; cases e; simp [Spec.prefixOps] at hp hp'; rcases hp' with rfl | rfl | rfl <;> simp at hp
  | .cast _ _ => rintro p hp r e; cases e; simp at hp
  | .bin _ h _ => exact app h.cons h.noBrace
  | .cond h _ _ => exact app h.cons h.noBrace
  | .assign _ h _ => exact app h.cons h.noBrace
  | .up h _ => exact h.noBrace

theorem toBlock_branch (s : Stmt) : s.toBlock = branch s := by cases s <;> rfl

theorem cond_reads (E : Env) {cs : List MacroToken} {c : Expr} (h : Gram 12 cs c) (rest : List MacroToken) :
    condition E (.punct c!"(" :: (cs ++ .punct c!")" :: rest)) = some (c, rest) := by
  simp only [condition, parenthesized, delimited, terminated, preceded, map, seq, punct_self, meta_none (h.start.noComment _),
    h.reads E (.punct c!")" :: rest) (.inr ⟨_, _, rfl, by decide⟩), meta_none (noComment_punct _ _)]

/-- What a statement begins with. -/
theorem stmtStart {D b o : Bool} {ts : List MacroToken} {s : Stmt} (h : GStmt D b o ts s) :
    ∃ t u, ts = t :: u ∧ (∀ s, t ≠ .comment s) ∧ t ≠ .punct c!";" ∧ t ≠ .punct c!"}" ∧ t ≠ .ident c!"else" := by
  cases h with
  | @expr _ ts e h _ =>
    obtain ⟨t, u, rfl⟩ := h.cons
    refine ⟨t, _, rfl, ?_, ?_, ?_, ?_⟩
    · rintro s rfl
      have := h.start.noComment []
      exact this _ _ (by rw [List.append_nil])
    · rintro rfl; exact h.noBrace _ (by decide) _ rfl
    · rintro rfl; exact h.noBrace _ (by decide) _ rfl
    · rintro rfl; exact h.noWord (w := c!"else") (by decide) (by decide) _ rfl
  | @decl _ st us t x n ts e h hx hg =>
    cases st with
    | true => exact ⟨_, _, rfl, by simp, by simp, by simp, by decide⟩
    | false =>
      obtain ⟨y, u, rfl, h1, h2, h3⟩ := h.head
      exact ⟨y, _, rfl, h1, h2 _, h2 _, h3 _ (by decide)⟩
  | @fn _ st us t x n vs ps h hx hp =>
    cases st with
    | true => exact ⟨_, _, rfl, by simp, by simp, by simp, by decide⟩
    | false =>
      obtain ⟨y, u, rfl, h1, h2, h3⟩ := h.head
      exact ⟨y, _, rfl, h1, h2 _, h2 _, h3 _ (by decide)⟩
  | block _ => exact ⟨_, _, rfl, by simp, by decide, by decide, by simp⟩
  | ite _ _ => exact ⟨_, _, rfl, by simp, by simp, by simp, by decide⟩
  | iteElse _ _ _ => exact ⟨_, _, rfl, by simp, by simp, by simp, by decide⟩
  | doWhile _ _ _ => exact ⟨_, _, rfl, by simp, by simp, by simp, by decide⟩

theorem after_next {D b o : Bool} {ts : List MacroToken} {s : Stmt} (h : GStmt D b o ts s) (o' : Bool) (rest : List MacroToken) :
    After true o' (ts ++ rest) := by
  obtain ⟨t, u, rfl, h1, h2, _, h4⟩ := stmtStart h
  refine ⟨by simp, ?_, ?_, ?_⟩
  · rintro s r e; cases e; exact h1 _ rfl
  · rintro r e; cases e; exact h2 rfl
  · rintro _ r e; cases e; exact h4 rfl

/-- The end of a block is not a statement. -/
theorem single_close (E : Env) (n : Nat) (r : List MacroToken) : parseSingle E n (.punct c!"}" :: r) = none := by
  cases n with
  | zero => rfl
  | succ n =>
    rw [single_eq]
    have h1 : parseAsm E (.punct c!"}" :: r) = none := asm_none E fun w _ => rfl
    have h2 : staticTy E (.punct c!"}" :: r) = none := by
      rw [staticTy_eq]
      have : keyword c!"static" (.punct c!"}" :: r) = none := rfl
      rw [this]
      simp only [parseTy, seq, tyBase_other E (.inl ⟨_, rfl⟩), Option.map_none]
    have h3 : parseExpr E (.punct c!"}" :: r) = none := rfl
    have h4 : ∀ k, keyword k (.punct c!"}" :: r) = none := fun k => rfl
    simp only [Parser.or, map, terminated, seq, h1, preceded, h4, delimited, punct_ne (show c!"{" ≠ c!"}" by decide), parseFunctionDecl,
      parseVarDecl, h2, h3]

theorem single_nil (E : Env) (n : Nat) : parseSingle E n [] = none := by
  cases n with
  | zero => rfl
  | succ n =>
    rw [single_eq]
    rfl

/-- The type of a declaration never looks like inline assembly. -/
theorem declAsm_none (E : Env) {us : List MacroToken} {t : Ty} (h : DeclType us t) {x : MacroToken}
    (hx : ∀ w ∈ [c!"volatile", c!"inline", c!"goto"], x ≠ .ident w) (hp : x ≠ .punct c!"(") (rest : List MacroToken) :
    parseAsm E (us ++ x :: rest) = none := by
  have hd : (∃ y u, us = y :: u ∧ ∀ w ∈ asmStarts, y ≠ .ident w) ∨ ∃ y u, us = y :: u ∧ (u = [] ∨ ∃ v, u = .punct c!"*" :: v) := by
    induction h with
    | @builtIn ts t h =>
      left
      clear hx hp
      induction h with
      | @int ws t h1 _ _ =>
        have hm := mem_orders h1
        have hall : ∀ x ∈ orders, ∃ w u, x.1 = w :: u ∧ w ∉ asmStarts := by
          have : orders.all (fun x => match x.1 with | [] => false | w :: _ => decide (w ∉ asmStarts)) = true := by
            decide +kernel
          intro x hx
          have := List.all_eq_true.1 this x hx
          cases hw : x.1 with
          | nil => rw [hw] at this; cases this
          | cons w u => rw [hw] at this; exact ⟨w, u, rfl, of_decide_eq_true this⟩
        obtain ⟨w, u, hw, hn⟩ := hall _ hm
        dsimp only at hw
        subst hw
        refine ⟨.ident w, u.map .ident, rfl, fun w' hw' e => ?_⟩
        cases e
        exact hn hw'
      | void => exact ⟨_, _, rfl, by decide⟩
      | bool => exact ⟨_, _, rfl, by decide⟩
      | float => exact ⟨_, _, rfl, by decide⟩
      | double => exact ⟨_, _, rfl, by decide⟩
      | ptr h ih =>
        obtain ⟨x, u, rfl, h1⟩ := ih
        exact ⟨x, _, rfl, h1⟩
    | name h => exact .inr ⟨_, _, rfl, .inl rfl⟩
    | ptr h ih =>
      rcases ih with ⟨y, u, rfl, hw⟩ | ⟨y, u, rfl, rfl | ⟨v, rfl⟩⟩
      · exact .inl ⟨_, _, rfl, hw⟩
      · exact .inr ⟨_, _, rfl, .inr ⟨_, rfl⟩⟩
      · exact .inr ⟨_, _, rfl, .inr ⟨_, rfl⟩⟩
  rcases hd with ⟨y, u, rfl, hh⟩ | ⟨y, u, rfl, rfl | ⟨v, rfl⟩⟩
  · exact asm_none E fun w hw => keyword_other (hh w hw) _
  · exact asm_none' E hx hp
  · exact asm_none' E (by simp) (by decide)

theorem punct_not {p : Str} {t : MacroToken} (h : t ≠ .punct p) (r : List MacroToken) : punct p (t :: r) = none := by
  cases t <;> first | rfl | skip
  exact punct_ne (by rintro rfl; exact h rfl) _

/-- Where a sequence of statements ends. -/
structure AtEnd (b : Bool) (rest : List MacroToken) : Prop where
  fin : b = false → rest = []
  close : rest = [] ∨ ∃ r, rest = .punct c!"}" :: r

theorem AtEnd.after {b : Bool} {rest : List MacroToken} (h : AtEnd b rest) (o : Bool) : After b o rest := by
  refine ⟨h.fin, ?_, ?_, ?_⟩ <;> rcases h.close with rfl | ⟨r, rfl⟩ <;> intros <;> simp [PlainStart]

theorem expr_single (E : Env) {b : Bool} {ts : List MacroToken} {e : Expr} (h : Gram 12 ts e) (hs : ExprStart ts) {n : Nat}
    {rest : List MacroToken} (ha : After b false rest) : parseSingle E (n + 1) (ts ++ semi b ++ rest) = some (.expr e, rest) := by
  rw [List.append_assoc, single_eq]
  obtain ⟨t, u, ht⟩ := h.cons
  have h1 : parseAsm E (ts ++ (semi b ++ rest)) = none := by
    refine asm_none E fun w hw => ?_
    rw [ht]
    refine keyword_other ?_ _
    rintro rfl
    exact hs.2 w hw _ ht
  have h2 : ∀ w ∈ [c!"if", c!"do"], keyword w (ts ++ (semi b ++ rest)) = none := by
    intro w hw
    rw [ht]
    refine keyword_other ?_ _
    rintro rfl
    exact h.noWord (w := w) ((by decide : ∀ w ∈ [c!"if", c!"do"], w ∈ Spec.cKeywords) w hw)
      ((by decide : ∀ w ∈ [c!"if", c!"do"], w ≠ c!"sizeof") w hw) _ ht
  have h3 : punct c!"{" (ts ++ (semi b ++ rest)) = none := by
    rw [ht]
    refine punct_not ?_ _
    rintro rfl
    exact h.noBrace _ (by decide) _ ht
  obtain ⟨h4, h5⟩ := decls_none E h hs (semi_end ha)
  simp only [Parser.or, map, terminated, preceded, delimited, seq, h1, h2 _ (show c!"if" ∈ _ by decide), h2 _ (show c!"do" ∈ _ by decide), h3, h4, h5,
    h.reads E _ (semi_stop ha), semi_reads ha]

theorem decl_single (E : Env) {b s : Bool} {us ts : List MacroToken} {t : Ty} {x : MacroToken} {m : IdentExpr} {e : Expr}
    (h : DeclType us t) (hx : Name x m) (he : Gram 12 ts e) {n : Nat} {rest : List MacroToken} (ha : After b false rest) :
    parseSingle E (n + 1) (staticWord s ++ (us ++ x :: .punct c!"=" :: (ts ++ semi b)) ++ rest) = some (.varDecl ⟨t, m, e, s⟩, rest) := by
  have hap : staticWord s ++ (us ++ x :: .punct c!"=" :: (ts ++ semi b)) ++ rest
      = staticWord s ++ (us ++ x :: (.punct c!"=" :: (ts ++ (semi b ++ rest)))) := by simp
  rw [hap, single_eq]
  have hst := staticTy_decl E s h hx (.punct c!"=" :: (ts ++ (semi b ++ rest)))
  obtain ⟨y, u, hy, hy1, hy2, hy3⟩ := h.head
  have h2 : ∀ w ∈ [c!"if", c!"do"], keyword w (staticWord s ++ (us ++ x :: (.punct c!"=" :: (ts ++ (semi b ++ rest))))) = none := by
    intro w hw
    cases s with
    | true =>
      refine keyword_other (t := .ident c!"static") ?_ _
      revert w; decide
    | false =>
      rw [hy]
      refine keyword_other (hy3 _ ?_) _
      revert w; decide
  have h3 : punct c!"{" (staticWord s ++ (us ++ x :: (.punct c!"=" :: (ts ++ (semi b ++ rest))))) = none := by
    cases s with
    | true => rfl
    | false => rw [hy]; exact punct_not (hy2 _) _
  have hxw : ∀ w ∈ [c!"volatile", c!"inline", c!"goto"], x ≠ .ident w := by
    rintro w hw rfl
    cases hx with
    | ident hx => exact hx ((by decide : ∀ w ∈ [c!"volatile", c!"inline", c!"goto"], w ∈ Spec.cKeywords) w hw)
  have hxp : x ≠ .punct c!"(" := by rintro rfl; cases hx
  have h1 : parseAsm E (staticWord s ++ (us ++ x :: (.punct c!"=" :: (ts ++ (semi b ++ rest))))) = none := by
    cases s with
    | true =>
      refine asm_none E fun w hw => ?_
      refine keyword_other (t := .ident c!"static") ?_ _
      revert w; decide
    | false => exact declAsm_none E h hxw hxp _
  have h4 := concatIdent_name E hx (rest := .punct c!"=" :: (ts ++ (semi b ++ rest))) (.inr ⟨_, _, rfl, by decide⟩)
  have h5 : punct c!"(" (.punct c!"=" :: (ts ++ (semi b ++ rest))) = none := punct_ne (by decide) _
  simp only [Parser.or, map, terminated, preceded, delimited, parenthesized, seq, h1, h2 _ (show c!"if" ∈ _ by decide),
    h2 _ (show c!"do" ∈ _ by decide), h3, parseFunctionDecl, parseVarDecl, hst, h4, h5, punct_self, he.reads E _ (semi_stop ha), semi_reads ha]

/-- The parameter list of a declared function. -/
theorem declParams_read (E : Env) {vs : List MacroToken} {ps : List (Ty × IdentExpr)} (h : GParams false vs ps) (rest : List MacroToken) :
    sepList0 (seq «meta» (punct c!",")) (seq (parseTy E) (parseConcatIdent E)) (vs ++ .punct c!")" :: rest) = some (ps, .punct c!")" :: rest) ∧
      PlainStart (vs ++ .punct c!")" :: rest) := by
  have hp : Shrinks (seq (parseTy E) (parseConcatIdent E)) := .seq (eats_ty E).shrinks (eats_concatIdent E).shrinks
  have hs : Shrinks (preceded (seq «meta» (punct c!",")) (seq (parseTy E) (parseConcatIdent E))) :=
    .preceded (.seq shrinks_meta (strict_punct _).shrinks) hp
  induction h with
  | nil =>
    have h1 : parseTy E (.punct c!")" :: rest) = none := by
      simp only [parseTy, seq, tyBase_other E (.inl ⟨_, rfl⟩), Option.map_none]
    exact ⟨by simp only [List.nil_append, sepList0, seq, h1], noComment_punct _ _⟩
  | void h => cases h
  | @one us t x n h hx =>
    obtain ⟨y, u, hy, hy1, _, _⟩ := h.head
    have h1 : seq (parseTy E) (parseConcatIdent E) (us ++ x :: .punct c!")" :: rest) = some ((t, n), .punct c!")" :: rest) := by
      simp only [seq, declType_reads E h hx, concatIdent_name E hx (rest := .punct c!")" :: rest) (.inr ⟨_, _, rfl, by decide⟩)]
    have h2 : preceded (seq «meta» (punct c!",")) (seq (parseTy E) (parseConcatIdent E)) (.punct c!")" :: rest) = none := by
      simp only [preceded, map, seq, meta_none (noComment_punct _ _), punct_ne (show c!"," ≠ c!")" by decide)]
    rw [List.append_assoc, List.singleton_append]
    refine ⟨by simp only [sepList0, h1, many0_none h2], ?_⟩
    rw [hy]
    rintro s r e
    cases e
    exact hy1 _ rfl
  | @cons us t x n vs p ps h hx hv ih =>
    obtain ⟨y, u, hy, hy1, _, _⟩ := h.head
    have h1 : seq (parseTy E) (parseConcatIdent E) (us ++ x :: .punct c!"," :: (vs ++ .punct c!")" :: rest)) =
        some ((t, n), .punct c!"," :: (vs ++ .punct c!")" :: rest)) := by
      simp only [seq, declType_reads E h hx, concatIdent_name E hx (rest := .punct c!"," :: (vs ++ .punct c!")" :: rest)) (.inr ⟨_, _, rfl, by decide⟩)]
    have h2 : many0 (preceded (seq «meta» (punct c!",")) (seq (parseTy E) (parseConcatIdent E))) (.punct c!"," :: (vs ++ .punct c!")" :: rest)) =
        some (p :: ps, .punct c!")" :: rest) := by
      have h3 := ih.1
      unfold sepList0 at h3
      split at h3
      · cases h3
      · rename_i b r' hb
        have hl := hp _ _ _ hb
        split at h3
        · rename_i as r'' h4
          cases h3
          refine many0_some hs (a := p) (r := r') ?_ (by simp only [List.length_cons]; omega) h4
          simp only [preceded, map, seq, meta_none (noComment_punct _ _), punct_self]
          simp only [seq] at hb
          rw [hb]
        · cases h3
    rw [List.append_assoc, List.cons_append, List.cons_append]
    refine ⟨by simp only [sepList0, h1, h2], ?_⟩
    rw [hy]
    rintro s r e
    cases e
    exact hy1 _ rfl

/-- A function declaration is read as one. -/
theorem fn_single (E : Env) {b s : Bool} {us vs : List MacroToken} {t : Ty} {x : MacroToken} {m : IdentExpr} {ps : List (Ty × IdentExpr)}
    (h : DeclType us t) (hx : Name x m) (hp : GParams false vs ps) {n : Nat} {rest : List MacroToken} (ha : After b false rest) :
    parseSingle E (n + 1) (staticWord s ++ (us ++ x :: .punct c!"(" :: (vs ++ .punct c!")" :: semi b)) ++ rest) =
      some (.fnDecl ⟨t, m, ps⟩, rest) := by
  have hap : staticWord s ++ (us ++ x :: .punct c!"(" :: (vs ++ .punct c!")" :: semi b)) ++ rest
      = staticWord s ++ (us ++ x :: (.punct c!"(" :: (vs ++ .punct c!")" :: (semi b ++ rest)))) := by simp
  rw [hap, single_eq]
  obtain ⟨hl, hpl⟩ := declParams_read E hp (semi b ++ rest)
  generalize hR : (MacroToken.punct c!"(" :: (vs ++ .punct c!")" :: (semi b ++ rest))) = R at *
  have hst := staticTy_decl E s h hx R
  obtain ⟨y, u, hy, hy1, hy2, hy3⟩ := h.head
  have h2 : ∀ w ∈ [c!"if", c!"do"], keyword w (staticWord s ++ (us ++ x :: R)) = none := by
    intro w hw
    cases s with
    | true =>
      refine keyword_other (t := .ident c!"static") ?_ _
      revert w; decide
    | false =>
      rw [hy]
      refine keyword_other (hy3 _ ?_) _
      revert w; decide
  have h3 : punct c!"{" (staticWord s ++ (us ++ x :: R)) = none := by
    cases s with
    | true => rfl
    | false => rw [hy]; exact punct_not (hy2 _) _
  have hxw : ∀ w ∈ [c!"volatile", c!"inline", c!"goto"], x ≠ .ident w := by
    rintro w hw rfl
    cases hx with
    | ident hx => exact hx ((by decide : ∀ w ∈ [c!"volatile", c!"inline", c!"goto"], w ∈ Spec.cKeywords) w hw)
  have hxp : x ≠ .punct c!"(" := by rintro rfl; cases hx
  have h1 : parseAsm E (staticWord s ++ (us ++ x :: R)) = none := by
    cases s with
    | true =>
      refine asm_none E fun w hw => ?_
      refine keyword_other (t := .ident c!"static") ?_ _
      revert w; decide
    | false => exact declAsm_none E h hxw hxp _
  have h4 := concatIdent_name E hx (rest := R) (by rw [← hR]; exact .inr ⟨_, _, rfl, by decide⟩)
  have h5 : parenthesized (sepList0 (seq «meta» (punct c!",")) (seq (parseTy E) (parseConcatIdent E))) R = some (ps, semi b ++ rest) := by
    rw [← hR]
    simp only [parenthesized, delimited, terminated, preceded, map, seq, punct_self, meta_none hpl, hl, meta_none (noComment_punct _ _)]
  simp only [Parser.or, map, terminated, preceded, delimited, seq, h1, h2 _ (show c!"if" ∈ _ by decide),
    h2 _ (show c!"do" ∈ _ by decide), h3, parseFunctionDecl, hst, h4, h5, semi_reads ha]

theorem keyword_punct (k p : Str) (r : List MacroToken) : keyword k (.punct p :: r) = none := rfl

theorem shrinks_pre (E : Env) (n : Nat) : Shrinks (preceded «meta» (parseSingle E n)) :=
  (eats_meta.preceded (eats_single E n)).shrinks

theorem after_many {D b : Bool} {us : List MacroToken} {s : Stmt} {ss : List Stmt} (h : GStmts D b us (s :: ss)) {rest : List MacroToken}
    (_ : AtEnd b rest) (o : Bool) : After true o (us ++ rest) := by
  cases h with
  | last h => exact after_next h o rest
  | cons h _ => rw [List.append_assoc]; exact after_next h o _

theorem plain_many {D b : Bool} {us : List MacroToken} {ss : List Stmt} (h : GStmts D b us ss) {rest : List MacroToken}
    (he : AtEnd b rest) : PlainStart (us ++ rest) := by
  cases ss with
  | nil => cases h; exact (he.after false).plain
  | cons s ss => exact (after_many h he false).plain

mutual

theorem single_reads (E : Env) : ∀ {b o : Bool} {ts : List MacroToken} {s : Stmt}, GStmt false b o ts s →
    ∀ (n : Nat) (rest : List MacroToken), ts.length < n → After b o rest → parseSingle E n (ts ++ rest) = some (s, rest)
  | _, _, _, _, .expr h hs, n, rest, hn, ha => by
    obtain ⟨n, rfl⟩ : ∃ k, n = k + 1 := ⟨n - 1, by omega⟩
    exact expr_single E h hs ha
  | _, _, _, _, .decl h hx he, n, rest, hn, ha => by
    obtain ⟨n, rfl⟩ : ∃ k, n = k + 1 := ⟨n - 1, by omega⟩
    exact decl_single E h hx he ha
  | _, _, _, _, .fn h hx hp, n, rest, hn, ha => by
    obtain ⟨n, rfl⟩ : ∃ k, n = k + 1 := ⟨n - 1, by omega⟩
    exact fn_single E h hx hp ha
  | b, _, _, _, .block (ts := ts) (ss := ss) h, n, rest, hn, ha => by
    obtain ⟨n, rfl⟩ : ∃ k, n = k + 1 := ⟨n - 1, by omega⟩
    have hl : ts.length < n := by simp at hn; omega
    have hm := many_reads E h n (.punct c!"}" :: rest) (preceded «meta» (parseSingle E n)) (shrinks_pre E n)
      (fun i s r hi hr _ => by simp only [preceded, map, seq, meta_none hi, hr])
      ⟨by simp, .inr ⟨_, rfl⟩⟩ (by simp only [preceded, map, seq, meta_none (noComment_punct _ _), single_close]) hl
    have hap : .punct c!"{" :: (ts ++ [.punct c!"}"]) ++ rest = .punct c!"{" :: (ts ++ .punct c!"}" :: rest) := by simp
    have hpl : PlainStart (ts ++ .punct c!"}" :: rest) := plain_many h ⟨by simp, .inr ⟨_, rfl⟩⟩
    have ho : opt (punct c!";") rest = some (none, rest) := by
      have : punct c!";" rest = none := by
        cases rest with
        | nil => rfl
        | cons t r => exact punct_not (by rintro rfl; exact ha.noSemi _ rfl) _
      simp only [opt, this]
    rw [hap, single_eq]
    generalize preceded «meta» (parseSingle E n) = P at hm ⊢
    simp only [Parser.or, map, terminated, preceded, delimited, seq, asm_none E (i := .punct c!"{" :: (ts ++ .punct c!"}" :: rest)) (fun w _ => rfl),
      keyword_punct, punct_self, meta_none hpl, hm, meta_none (noComment_punct _ _), ho]
  | b, _, _, _, .ite (o := o) (cs := cs) (ts := ts) (s := s) hc h, n, rest, hn, ha => by
    obtain ⟨n, rfl⟩ : ∃ k, n = k + 1 := ⟨n - 1, by omega⟩
    have hl : ts.length < n := by simp at hn; omega
    have hs := single_reads E h n rest hl ⟨ha.fin, ha.plain, ha.noSemi, fun _ => ha.noElse rfl⟩
    have hap : .ident c!"if" :: .punct c!"(" :: (cs ++ .punct c!")" :: ts) ++ rest
        = .ident c!"if" :: .punct c!"(" :: (cs ++ .punct c!")" :: (ts ++ rest)) := by simp
    have he : keyword c!"else" rest = none := by
      cases rest with
      | nil => rfl
      | cons t r => exact keyword_other (by rintro rfl; exact ha.noElse rfl _ rfl) _
    rw [hap, single_eq]
    have h1 : parseAsm E (.ident c!"if" :: .punct c!"(" :: (cs ++ .punct c!")" :: (ts ++ rest))) = none :=
      asm_none E fun w hw => keyword_ne ((by decide : ∀ w ∈ asmStarts, c!"if" ≠ w) w hw)
    simp only [Parser.or, map, terminated, preceded, delimited, seq, h1, keyword_self, meta_none (noComment_punct _ _), cond_reads E hc, hs, opt,
      meta_none ha.plain, he, toBlock_branch, Option.getD_none]
  | b, o, _, _, .iteElse (cs := cs) (ts := ts) (s := s) (us := us) (s' := s') hc h h', n, rest, hn, ha => by
    obtain ⟨n, rfl⟩ : ∃ k, n = k + 1 := ⟨n - 1, by omega⟩
    have hl : ts.length < n := by simp at hn; omega
    have hl' : us.length < n := by simp at hn; omega
    have hs := single_reads E h n (.ident c!"else" :: (us ++ rest)) hl
      ⟨by simp, by simp [PlainStart], by simp, by simp⟩
    have hs' := single_reads E h' n rest hl' ha
    have hap : .ident c!"if" :: .punct c!"(" :: (cs ++ .punct c!")" :: (ts ++ .ident c!"else" :: us)) ++ rest
        = .ident c!"if" :: .punct c!"(" :: (cs ++ .punct c!")" :: (ts ++ .ident c!"else" :: (us ++ rest))) := by simp
    have hpl : PlainStart (us ++ rest) := (after_next h' false rest).plain
    rw [hap, single_eq]
    have h1 : parseAsm E (.ident c!"if" :: .punct c!"(" :: (cs ++ .punct c!")" :: (ts ++ .ident c!"else" :: (us ++ rest)))) = none :=
      asm_none E fun w hw => keyword_ne ((by decide : ∀ w ∈ asmStarts, c!"if" ≠ w) w hw)
    have hm : «meta» (.ident c!"else" :: (us ++ rest)) = some ([], .ident c!"else" :: (us ++ rest)) := meta_none (by simp [PlainStart])
    simp only [Parser.or, map, terminated, preceded, delimited, seq, h1, keyword_self, meta_none (noComment_punct _ _), cond_reads E hc, hs, opt,
      hm, meta_none hpl, hs', toBlock_branch, Option.getD_some]
  | b, _, _, _, .doWhile (o := o) (cs := cs) (c := c) (ts := ts) (s := s) h hc hb, n, rest, hn, ha => by
    obtain ⟨n, rfl⟩ : ∃ k, n = k + 1 := ⟨n - 1, by omega⟩
    have hb' : b = false := by cases b with | false => rfl | true => cases hb rfl
    subst hb'
    have hl : ts.length < n := by simp at hn; omega
    have hs := single_reads E h n (.ident c!"while" :: .punct c!"(" :: (cs ++ .punct c!")" :: rest)) hl
      ⟨by simp, by simp [PlainStart], by simp, by simp⟩
    have hap : .ident c!"do" :: (ts ++ .ident c!"while" :: .punct c!"(" :: (cs ++ .punct c!")" :: semi false)) ++ rest
        = .ident c!"do" :: (ts ++ .ident c!"while" :: .punct c!"(" :: (cs ++ .punct c!")" :: rest)) := by simp [semi]
    rw [hap, single_eq]
    have h1 : parseAsm E (.ident c!"do" :: (ts ++ .ident c!"while" :: .punct c!"(" :: (cs ++ .punct c!")" :: rest))) = none :=
      asm_none E fun w hw => keyword_ne ((by decide : ∀ w ∈ asmStarts, c!"do" ≠ w) w hw)
    have hpl : PlainStart (ts ++ .ident c!"while" :: .punct c!"(" :: (cs ++ .punct c!")" :: rest)) := (after_next h false _).plain
    have h2 : keyword c!"if" (.ident c!"do" :: (ts ++ .ident c!"while" :: .punct c!"(" :: (cs ++ .punct c!")" :: rest))) = none :=
      keyword_ne (by decide)
    simp only [Parser.or, map, terminated, preceded, delimited, seq, h1, h2, keyword_self, meta_none hpl, cond_reads E hc, hs, toBlock_branch]

theorem many_reads (E : Env) : ∀ {b : Bool} {ts : List MacroToken} {ss : List Stmt}, GStmts false b ts ss →
    ∀ (n : Nat) (rest : List MacroToken) (P : TParser Stmt), Shrinks P →
      (∀ i s r, PlainStart i → parseSingle E n i = some (s, r) → PlainStart r → P i = some (s, r)) →
      AtEnd b rest → P rest = none → ts.length < n → many0 P (ts ++ rest) = some (ss, rest)
  | _, _, _, .nil, n, rest, P, hP, hp, he, hr, hn => by
    rw [List.nil_append]
    exact many0_none hr
  | b, _, _, .last (o := o) (ts := ts) h, n, rest, P, hP, hp, he, hr, hn => by
    have hs := single_reads E h n rest hn (he.after o)
    have := hp _ _ _ (after_next h false rest).plain hs (he.after o).plain
    obtain ⟨t, u, hts, _⟩ := stmtStart h
    exact many0_some hP this (by rw [hts]; simp; omega) (many0_none hr)
  | b, _, _, .cons (o := o) (ts := ts) (us := us) h h', n, rest, P, hP, hp, he, hr, hn => by
    have hl : ts.length < n ∧ us.length < n := by simp at hn; omega
    have hn' := after_many h' he o
    have hs := single_reads E h n (us ++ rest) hl.1 hn'
    have hm := many_reads E h' n rest P hP hp he hr hl.2
    rw [List.append_assoc]
    have := hp _ _ _ (after_next h false _).plain hs hn'.plain
    obtain ⟨t, u, hts, _⟩ := stmtStart h
    exact many0_some hP this (by rw [hts]; simp; omega) hm

end

end CMacro
