import Verif.Spec.Occurs

/-!
# Printing neither loses nor repeats names
-/

namespace CMacro
open Spec

section
variable {w : Str} {ps : List Str}

theorem wc_nil : wordCount w [] = 0 := rfl
theorem wc_append (a b : List RTok) : wordCount w (a ++ b) = wordCount w a + wordCount w b := by simp [wordCount]
theorem wc_id (x : Str) (ts : List RTok) : wordCount w (.id x :: ts) = (if x = w then 1 else 0) + wordCount w ts := by
  unfold wordCount
  rw [List.countP_cons]
  by_cases h : x = w <;> simp [h, Nat.add_comm]
theorem wc_other {t : RTok} {ts : List RTok} (h : ∀ x, t ≠ .id x) : wordCount w (t :: ts) = wordCount w ts := by
  unfold wordCount
  rw [List.countP_cons]
  cases t with
  | id x => exact absurd rfl (h x)
  | _ => rfl
theorem wc_flatten : ∀ xs : List (List RTok), wordCount w xs.flatten = (xs.map (wordCount w)).sum
  | [] => rfl
  | x :: xs => by simp [wc_append, wc_flatten xs]

theorem lc_nil : leafCount w ps [] = 0 := rfl
theorem lc_append (a b : List Leaf) : leafCount w ps (a ++ b) = leafCount w ps a + leafCount w ps b := by simp [leafCount]

/-- Only words of the code generator. -/
def fixedWords (ts : List RTok) : Bool := ts.all fun
  | .id x => ownWords.contains x
  | _ => true

variable {C : Ctx} (hw : OrdinaryWord C w)
include hw

theorem wc_fixed {ts : List RTok} (h : fixedWords ts = true) : wordCount w ts = 0 := by
  unfold wordCount
  rw [List.countP_eq_zero]
  unfold fixedWords at h
  rw [List.all_eq_true] at h
  intro t ht
  have := h t ht
  cases t with
  | id x =>
    simp only [decide_eq_true_eq]
    rintro rfl
    exact hw.own (by simpa using this)
  | _ => simp

theorem wc_sep {sep : List RTok} (hs : fixedWords sep = true) : ∀ xs : List (List RTok), wordCount w (sepToks sep xs) = (xs.map (wordCount w)).sum
  | [] => rfl
  | [x] => by simp [sepToks]
  | x :: y :: zs => by
    rw [sepToks.eq_def]
    simp only [wc_append, wc_fixed hw hs, wc_sep hs (y :: zs), List.map_cons, List.sum_cons]
    simp

theorem wc_ids {xs : List Str} (h : w ∉ xs) : wordCount w (sepToks q!"::" (xs.map fun s => [.id s])) = 0 := by
  rw [wc_sep hw (by decide), List.map_map]
  induction xs with
  | nil => rfl
  | cons x xs ih =>
    simp only [List.mem_cons, not_or] at h
    simp only [List.map_cons, List.sum_cons, Function.comp, wc_id, wc_nil] at ih ⊢
    rw [ih h.2, if_neg (Ne.symm h.1)]

theorem wc_path {p : RPath} (h : w ∉ p.segs) : wordCount w p.toks = 0 := by
  unfold RPath.toks
  rw [wc_append, wc_ids hw h]
  split <;> rfl

theorem wc_prefix {p : Option RPath} (h : ∀ q, p = some q → w ∉ q.segs) : wordCount w (prefixToks p) = 0 := by
  cases p with
  | none => rfl
  | some q => rw [prefixToks, wc_append, wc_path hw (h q rfl)]; rfl

theorem wc_ffi : wordCount w (prefixToks C.ffiPrefix) = 0 := wc_prefix hw hw.ffi
theorem wc_trait : wordCount w (prefixToks C.traitPrefix) = 0 := wc_prefix hw hw.trait

theorem wc_rty : ∀ {t : RTy}, w ∉ rtyWords t → wordCount w t.toks = 0
  | .ptr m t, h => by
    rw [RTy.toks, wc_append, wc_append, wc_rty (t := t) h]
    have h1 := wc_fixed hw (ts := q!"mut") (by decide)
    have h2 := wc_fixed hw (ts := q!"const") (by decide)
    cases m <;> simp [h1, h2, wc_other, wc_nil]
  | .unit, _ => rfl
  | .verbatim s, _ => rfl
  | .path (.rich _ _) p, h => rfl
  | .path .plain p, h => by rw [RTy.toks, wc_path hw h]
  | .other s, _ => rfl

theorem wc_prefixed {pre : Option RPath} {x : Str} (h : ∀ q, pre = some q → w ∉ q.segs) (hx : x ∈ ownWords) :
    wordCount w (RTy.prefixed pre x).toks = 0 := by
  have hne : w ≠ x := fun h => hw.own (h ▸ hx)
  cases pre with
  | none => exact wc_rty hw (by simp [RTy.prefixed, rtyWords, hne])
  | some p => exact wc_rty hw (by simp [RTy.prefixed, rtyWords, hne, h p rfl])

theorem wc_builtIn (b : BuiltInType) : wordCount w (b.toRust C).toks = 0 := by
  have hn : ∀ q : RPath, none = some q → w ∉ q.segs := by rintro q ⟨⟩
  cases b
  case sizeT =>
    unfold BuiltInType.toRust
    dsimp only
    split
    · rename_i h; exact wc_rty hw (hw.types _ _ h)
    · split
      · exact wc_prefixed hw hw.ffi (by decide)
      · exact wc_prefixed hw hn (by decide)
  all_goals first
    | exact wc_prefixed hw hn (by decide)
    | exact wc_prefixed hw hw.ffi (by decide)

variable {P : PCtx} (hC : P.C = C) (hp : P.L.argNames = ps)
include hC hp

omit hC in
theorem wc_arg (i : Nat) : wordCount w (argToks P i) = leafCount w ps [.arg i] := by
  unfold argToks leafCount
  rw [hp]
  cases h : ps[i]? with
  | none => simp [wordCount, h]
  | some n =>
    simp only [List.countP_cons, List.countP_nil, h, Option.some.injEq]
    by_cases hn : n = c!"..."
    · subst hn
      have : ¬ c!"..." = w := fun h => hw.own (h ▸ by decide)
      have h1 := wc_fixed hw (ts := q!"$ ( $ __VA_ARGS__ ) , *") (by decide)
      rw [if_pos rfl, h1, decide_eq_false this]; rfl
    · rw [if_neg hn]
      by_cases h2 : n = w
      · subst h2; cases P.asMacro <;> simp [wordCount]
      · cases P.asMacro <;> simp [wordCount, h2]

omit hC in
theorem wc_cont (c : IdentCont) : wordCount w (c.toks P) = leafCount w ps [contLeaf c] := by
  cases c with
  | arg i => exact wc_arg hw hp i
  | plain id =>
    simp only [IdentCont.toks, wc_id, wc_nil, contLeaf, leafCount, List.countP_cons, List.countP_nil, decide_eq_true_eq, Nat.add_zero, Nat.zero_add]
  | int n =>
    have := hw.notNumber n.value.toNat
    simp only [IdentCont.toks, LitInt.toks, contLeaf, leafCount, List.countP_cons, List.countP_nil, decide_eq_false (Ne.symm this)]
    rfl

theorem wc_name (n : IdentExpr) : wordCount w (n.toks P) = leafCount w ps (nameLeaves n) := by
  cases n with
  | arg i => exact wc_arg hw hp i
  | plain id =>
    simp only [IdentExpr.toks, wc_id, wc_nil, nameLeaves, leafCount, List.countP_cons, List.countP_nil, decide_eq_true_eq, Nat.add_zero, Nat.zero_add]
  | concat ids =>
    subst hC
    simp only [IdentExpr.toks, wc_append, wc_trait hw, wc_fixed hw (ts := q!"concat_idents ! (") (by decide), wc_sep hw (sep := q!",") (by decide),
      wc_fixed hw (ts := q!")") (by decide), nameLeaves, Nat.zero_add, Nat.add_zero]
    induction ids with
    | nil => rfl
    | cons c cs ih =>
      simp only [List.map_cons, List.sum_cons, ih, wc_cont hw hp c]
      rw [← lc_append]; rfl

theorem wc_ty : ∀ t : Ty, wordCount w (t.toks P) = leafCount w ps (tyLeaves t)
  | .builtIn b => by subst hC; rw [Ty.toks, wc_builtIn hw]; rfl
  | .ident n _ => wc_name hw hC hp n
  | .path lc segs => by
    rw [Ty.toks, wc_append, wc_sep hw (by decide), tyLeaves]
    have : wordCount w (if lc = true then q!"::" else []) = 0 := by split <;> rfl
    rw [this, Nat.zero_add]
    induction segs with
    | nil => rfl
    | cons s ss ih =>
      simp only [List.map_cons, List.sum_cons, ih, wc_id, wc_nil, leafCount, List.countP_cons, decide_eq_true_eq]
      omega
  | .ptr t => by
    rw [Ty.toks, wc_append, wc_ty t, wc_fixed hw (by decide), tyLeaves, Nat.zero_add]
  | .qualified (.ptr t) q => by
    rw [Ty.toks]
    split
    · rw [wc_append, wc_ty t, wc_fixed hw (by decide), tyLeaves, tyLeaves, Nat.zero_add]
    · rw [wc_append, wc_ty t, wc_fixed hw (by decide), tyLeaves, tyLeaves, Nat.zero_add]
  | .qualified (.builtIn b) _ => wc_ty (.builtIn b)
  | .qualified (.ident b c) _ => wc_ty (.ident b c)
  | .qualified (.path b c) _ => wc_ty (.path b c)
  | .qualified (.qualified b c) _ => wc_ty (.qualified b c)

omit hw hC hp in
theorem lc_names {xs : List Str} (h : w ∉ xs) : leafCount w ps (xs.map .name) = 0 := by
  unfold leafCount
  rw [List.countP_eq_zero]
  intro l hl
  obtain ⟨x, hx, rfl⟩ := List.mem_map.1 hl
  simp only [decide_eq_true_eq]
  rintro rfl
  exact h hx

omit hw hC hp in
/-- A type given by the user of the crate. -/
theorem lc_fromRust {ffi : Option RPath} : ∀ {r : RTy} {t : Ty}, w ∉ rtyWords r → Ty.fromRust ffi r = .ok t → leafCount w ps (tyLeaves t) = 0
  | .ptr m r, t, h, ht => by
    rw [Ty.fromRust] at ht
    split at ht
    · rename_i t' ht'
      have := lc_fromRust (r := r) h ht'
      cases ht
      cases m <;> simpa [tyLeaves] using this
    · cases ht
  | .unit, t, _, ht => by cases ht; rfl
  | .verbatim s, t, h, ht => by cases ht; exact lc_names (xs := [s]) h
  | .path q p, t, h, ht => by
    rw [Ty.fromRust] at ht
    split at ht
    · cases ht; rfl
    · split at ht
      · rename_i s _ hs
        cases ht
        rw [rtyWords, hs] at h
        exact lc_names h
      · cases ht; exact lc_names h
  | .other s, t, _, ht => by cases ht

theorem wc_wchar : wordCount w (wcharToks P) = 0 := by
  unfold wcharToks
  subst hC
  split
  · rename_i r h
    split
    · rename_i t ht
      rw [wc_ty hw rfl hp, lc_fromRust (hw.types _ _ h) ht]
    · rfl
  · exact wc_fixed hw (by decide)

theorem wc_file : wordCount w (fileToks P) = 0 := by
  subst hC
  unfold fileToks
  rw [wc_append, wc_trait hw, wc_fixed hw (by decide)]

omit hw hC hp in
theorem lc_lit (l : Lit) : leafCount w ps (litLeaves l) = 0 := by
  unfold leafCount
  rw [List.countP_eq_zero]
  intro x hx
  cases l with
  | string s =>
    obtain ⟨n, _, rfl⟩ := List.mem_map.1 hx
    simp
  | _ =>
    simp only [litLeaves, List.mem_singleton] at hx
    subst hx
    simp

omit hC hp in
theorem wc_static {L : Loc} {ts : List RTok} : wordCount w (staticRef L ts) = wordCount w ts := by
  unfold staticRef
  split
  · rw [wc_append, wc_fixed hw (by decide), Nat.zero_add]
  · rw [wc_append, wc_fixed hw (by decide), Nat.zero_add]

omit hp in
theorem wc_charPtr {ts : List RTok} : wordCount w (charPtrToks P ts) = wordCount w ts := by
  subst hC
  unfold charPtrToks
  simp only [wc_append, wc_static hw, wc_ffi hw, wc_fixed hw (ts := q!"{ const BYTES :") (by decide), wc_fixed hw (ts := q!"[ u8 ]") (by decide),
    wc_fixed hw (ts := q!"=") (by decide), wc_fixed hw (ts := q!". as_bytes ( ) ; BYTES . as_ptr ( ) as * const") (by decide),
    wc_fixed hw (ts := q!"c_char }") (by decide), Nat.zero_add, Nat.add_zero]

omit hC hp in
theorem wc_array {xs : List (List RTok)} (h : ∀ x ∈ xs, wordCount w x = 0) : wordCount w (arrayToks xs) = 0 := by
  unfold arrayToks
  rw [wc_append, wc_append, wc_sep hw (by decide), wc_fixed hw (ts := q!"& [") (by decide), wc_fixed hw (ts := q!"]") (by decide)]
  simp only [Nat.zero_add, Nat.add_zero]
  induction xs with
  | nil => rfl
  | cons x xs ih => rw [List.map_cons, List.sum_cons, h x (by simp), ih fun y hy => h y (by simp [hy])]

omit hC hp in
theorem wc_arrayTy {ty : List RTok} {n : Nat} (h : wordCount w ty = 0) : wordCount w (arrayTy ty n) = 0 := by
  unfold arrayTy
  simp only [wc_append, h, wc_fixed hw (ts := q!"& [") (by decide), wc_fixed hw (ts := q!"]") (by decide), wc_fixed hw (ts := q!";") (by decide)]
  rfl

omit hC hp in
theorem wc_constPtr {x : Str} {ty val : List RTok} (hx : x ∈ ownWords) (h : wordCount w ty = 0) (h' : wordCount w val = 0) :
    wordCount w (constPtrToks x ty val) = 0 := by
  have hne : x ≠ w := fun h => hw.own (h ▸ hx)
  unfold constPtrToks
  simp only [wc_append, h, h', wc_id, wc_nil, if_neg hne, wc_fixed hw (ts := q!"{ const") (by decide), wc_fixed hw (ts := q!":") (by decide),
    wc_fixed hw (ts := q!"=") (by decide), wc_fixed hw (ts := q!";") (by decide), wc_fixed hw (ts := q!". as_ptr ( ) }") (by decide)]

theorem wc_string (s : LitString) : wordCount w (s.toks P false).2 = 0 := by
  have hb : ∀ bs, wordCount w [.bytes bs] = 0 := fun _ => rfl
  cases s with
  | ordinary bs =>
    subst hC
    simp only [LitString.toks, Bool.false_eq_true, if_false, wc_append, wc_static hw, wc_ffi hw, hb, wc_fixed hw (ts := q!"{ const BYTES :") (by decide),
      wc_fixed hw (ts := q!"[ u8 ;") (by decide), wc_fixed hw (ts := q!"]") (by decide), wc_fixed hw (ts := q!"=") (by decide),
      wc_fixed hw (ts := q!"; BYTES . as_ptr ( ) as") (by decide), wc_fixed hw (ts := q!"* const") (by decide), wc_fixed hw (ts := q!"c_char") (by decide),
      wc_fixed hw (ts := q!"}") (by decide)]
    rfl
  | utf8 s =>
    simp only [LitString.toks, Bool.false_eq_true, if_false]
    exact wc_constPtr hw (by decide) (wc_arrayTy hw (wc_fixed hw (by decide))) rfl
  | utf16 s =>
    simp only [LitString.toks, Bool.false_eq_true, if_false]
    refine wc_constPtr hw (by decide) (wc_arrayTy hw (wc_fixed hw (by decide))) (wc_array hw fun x hx => ?_)
    obtain ⟨n, _, rfl⟩ := List.mem_map.1 hx
    rfl
  | utf32 s =>
    simp only [LitString.toks, Bool.false_eq_true, if_false]
    refine wc_constPtr hw (by decide) (wc_arrayTy hw (wc_fixed hw (by decide))) (wc_array hw fun x hx => ?_)
    obtain ⟨n, _, rfl⟩ := List.mem_map.1 hx
    rfl
  | wide ws =>
    simp only [LitString.toks, Bool.false_eq_true, if_false]
    refine wc_constPtr hw (by decide) (wc_arrayTy hw (wc_wchar hw hC hp)) (wc_array hw fun x hx => ?_)
    obtain ⟨n, _, rfl⟩ := List.mem_map.1 hx
    rw [wc_append, wc_append, wc_wchar hw hC hp, wc_fixed hw (ts := q!"as") (by decide)]
    rfl

theorem wc_lit (l : Lit) : wordCount w (l.toks P) = 0 := by
  cases l with
  | string s => exact wc_string hw hC hp s
  | char c => cases c <;> (simp only [Lit.toks, LitChar.toks]; split <;> rfl)
  | _ => rfl

theorem wc_var (n : IdentExpr) : wordCount w (varToks P n) = leafCount w ps (nameLeaves n) := by
  unfold varToks
  split
  · rename_i id
    have hid : ∀ x ∈ ownWords, id = x → leafCount w ps (nameLeaves (.plain id)) = 0 := by
      rintro x hx rfl
      exact lc_names (xs := [id]) (by simp; rintro rfl; exact hw.own hx)
    subst hC
    split
    · rename_i h
      rw [hid _ (by decide) h]
      simp only [wc_append, wc_trait hw, wc_ffi hw, wc_fixed hw (ts := q!"line ! ( ) as") (by decide), wc_fixed hw (ts := q!"c_uint") (by decide)]
    · split
      · rename_i h
        rw [hid _ (by decide) h, wc_charPtr hw rfl]
        simp only [wc_append, wc_trait hw, wc_file hw rfl hp, wc_fixed hw (ts := q!"concat ! (") (by decide), wc_fixed hw (ts := q!",") (by decide),
          wc_fixed hw (ts := q!")") (by decide), wc_fixed hw (ts := [.char '\x00']) (by decide)]
      · have hl : ∀ t, limitName id = some t → id ∈ ownWords ∧ t ∈ ownWords := by
          intro t h
          unfold limitName at h
          repeat' (split at h; · rename_i h'; subst h'; cases h; decide)
          cases h
        split
        · rename_i t h
          obtain ⟨h1, h2⟩ := hl t h
          rw [hid _ h1 rfl]
          have : t ≠ w := by rintro rfl; exact hw.own h2
          simp only [wc_append, wc_ffi hw, wc_id, wc_nil, if_neg this, wc_fixed hw (ts := q!":: MAX") (by decide)]
        · split
          · rename_i t e h
            have h1 : id ≠ w := by rintro rfl; rw [hw.notVariant] at h; cases h
            rw [show leafCount w ps (nameLeaves (.plain id)) = 0 from lc_names (xs := [id]) (by simpa using Ne.symm h1)]
            unfold wordCount
            rw [List.countP_eq_zero]
            intro x hx
            cases x with
            | id x =>
              simp only [decide_eq_true_eq]
              rintro rfl
              exact hw.variants _ _ _ h hx
            | _ => simp
          · exact wc_name hw rfl hp (.plain id)
  · exact wc_name hw hC hp n

theorem wc_stringify {n : IdentExpr} (h : StringOnce w ps n) : wordCount w (stringifyInner P n) = leafCount w ps (nameLeaves n) := by
  subst hC
  unfold stringifyInner
  cases n with
  | arg i =>
    have h1 : wordCount w q!"stringify ! ( $" = 0 := wc_fixed hw (by decide)
    simp only [wc_append, wc_trait hw, h1, wc_fixed hw (ts := q!")") (by decide), Nat.zero_add, Nat.add_zero, hp]
    unfold nameLeaves leafCount
    cases hi : ps[i]? with
    | none => simp [wordCount, hi]
    | some n =>
      by_cases hn : n = w
      · subst hn; simp [wordCount, hi]
      · simp [wordCount, hi, hn]
  | plain id =>
    have h1 : leafCount w ps (nameLeaves (.plain id)) = 0 := h
    rw [h1]
    dsimp only
    split
    · simp only [wc_append, wc_trait hw, wc_fixed hw (ts := q!"stringify ! (") (by decide), wc_fixed hw (ts := q!"line ! ( ) )") (by decide)]
    · split
      · simp only [wc_append, wc_trait hw, wc_file hw rfl hp, wc_fixed hw (ts := q!"format ! (") (by decide), wc_fixed hw (ts := q!",") (by decide),
          wc_fixed hw (ts := q!")") (by decide), wc_fixed hw (ts := [.str c!"{:?}"]) (by decide)]
      · simp only [wc_append, wc_trait hw, wc_fixed hw (ts := q!"stringify ! ( )") (by decide)]
  | concat ids =>
    have h1 : leafCount w ps (nameLeaves (.concat ids)) = 0 := h
    rw [h1]
    simp only [wc_append, wc_trait hw, wc_fixed hw (ts := q!"stringify ! ( )") (by decide)]

omit hC hp in
theorem wc_parenIf (b : Bool) (x : List RTok) : wordCount w (parenIf b x) = wordCount w x := by
  unfold parenIf parenToks
  split
  · simp only [wc_append, wc_fixed hw (ts := q!"(") (by decide), wc_fixed hw (ts := q!")") (by decide), Nat.zero_add, Nat.add_zero]
  · rfl

omit hp in
theorem wc_read {x : List RTok} : wordCount w (readVolatile P x) = wordCount w x := by
  subst hC
  unfold readVolatile
  simp only [wc_append, wc_trait hw, wc_fixed hw (ts := q!"ptr :: read_volatile (") (by decide), wc_fixed hw (ts := q!")") (by decide), Nat.zero_add, Nat.add_zero]

omit hp in
theorem wc_volatile {p v x : List RTok} : wordCount w (volatileBlock P p v x) = wordCount w p + wordCount w v + wordCount w x := by
  subst hC
  unfold volatileBlock
  simp only [wc_append, wc_trait hw, wc_fixed hw (ts := q!"{ let value =") (by decide), wc_fixed hw (ts := q!";") (by decide),
    wc_fixed hw (ts := q!"ptr :: write_volatile (") (by decide), wc_fixed hw (ts := q!",") (by decide), wc_fixed hw (ts := q!") ; value }") (by decide)]
  omega

/-- The operands have been counted. -/
def KidsCounted (w : Str) (ps : List Str) (P : PCtx) : Expr → Prop
  | .un _ x => wordCount w (x.toks P) = leafCount w ps (exprLeaves x)
  | .bin l _ r => wordCount w (l.toks P) = leafCount w ps (exprLeaves l) ∧ wordCount w (r.toks P) = leafCount w ps (exprLeaves r)
  | _ => True

omit hw hC hp in
theorem wc_kid0 {x : Expr} (hk : KidsCounted w ps P x) (h : leafCount w ps (exprLeaves x) = 0) : wordCount w (kid0 (Expr.kids P x)) = 0 := by
  cases x with
  | un op y => rw [exprLeaves] at h; rw [Expr.kids, kid0]; exact hk.trans h
  | bin l op r => rw [exprLeaves, lc_append] at h; rw [Expr.kids, kid0]; exact hk.1.trans (by omega)
  | _ => rw [Expr.kids]; rfl; all_goals simp

theorem wc_deref {x : Expr} (h : wordCount w (x.toks P) = leafCount w ps (exprLeaves x)) (hk : KidsCounted w ps P x) (ho : ExprOnce w ps x) :
    wordCount w (derefToks P x (x.toks P) (Expr.kids P x)) = leafCount w ps (exprLeaves x) := by
  have hplain : wordCount w (q!"*" ++ parenIf (decide (x.prec > 2)) (x.toks P)) = leafCount w ps (exprLeaves x) := by
    rw [wc_append, wc_parenIf hw, h, wc_fixed hw (ts := q!"*") (by decide), Nat.zero_add]
  have hz : ∀ {y : Expr} {op}, x = .un op y → changes op = true → wordCount w (y.toks P) = 0 ∧ leafCount w ps (exprLeaves x) = 0 := by
    rintro y op rfl hc
    have h1 := ho.1 hc
    exact ⟨Eq.trans hk h1, by rw [exprLeaves]; exact h1⟩
  have hstep : ∀ m ∈ [c!"add", c!"sub"], ∀ y : List RTok, wordCount w y = 0 → wordCount w (derefStep m y) = 0 := by
    intro m hm y hy
    unfold derefStep
    have : wordCount w [.id m] = 0 := wc_fixed hw ((by decide : ∀ m ∈ [c!"add", c!"sub"], fixedWords [.id m] = true) m hm)
    simp only [wc_append, hy, this, wc_fixed hw (ts := q!"=") (by decide), wc_fixed hw (ts := q!".") (by decide), wc_fixed hw (ts := q!"(") (by decide),
      wc_fixed hw (ts := [.int 1 []]) (by decide), wc_fixed hw (ts := q!") ;") (by decide)]
  unfold derefToks
  dsimp only
  split
  · split
    · rw [wc_read hw hC, h]
    · exact hplain
  · simp only [wc_append, wc_parenIf hw, Expr.kids, kid0, kid1, wc_fixed hw (ts := q!"*") (by decide), wc_fixed hw (ts := q!". add (") (by decide),
      wc_fixed hw (ts := q!")") (by decide), hk.1, hk.2, exprLeaves, lc_append]
    omega
  · simp only [wc_append, wc_parenIf hw, Expr.kids, kid0, kid1, wc_fixed hw (ts := q!"*") (by decide), wc_fixed hw (ts := q!". sub (") (by decide),
      wc_fixed hw (ts := q!")") (by decide), hk.1, hk.2, exprLeaves, lc_append]
    omega
  · obtain ⟨h1, h2⟩ := hz rfl rfl
    simp only [wc_append, Expr.kids, kid0, hstep c!"add" (by decide) _ h1, h1, h2, wc_fixed hw (ts := q!"* {") (by decide), wc_fixed hw (ts := q!"}") (by decide)]
  · obtain ⟨h1, h2⟩ := hz rfl rfl
    simp only [wc_append, Expr.kids, kid0, hstep c!"sub" (by decide) _ h1, h1, h2, wc_fixed hw (ts := q!"* {") (by decide), wc_fixed hw (ts := q!"}") (by decide)]
  · obtain ⟨h1, h2⟩ := hz rfl rfl
    simp only [wc_append, Expr.kids, kid0, hstep c!"add" (by decide) _ h1, h1, h2, wc_fixed hw (ts := q!"* { let prev =") (by decide),
      wc_fixed hw (ts := q!";") (by decide), wc_fixed hw (ts := q!"prev }") (by decide)]
  · obtain ⟨h1, h2⟩ := hz rfl rfl
    simp only [wc_append, Expr.kids, kid0, hstep c!"sub" (by decide) _ h1, h1, h2, wc_fixed hw (ts := q!"* { let prev =") (by decide),
      wc_fixed hw (ts := q!";") (by decide), wc_fixed hw (ts := q!"prev }") (by decide)]
  · exact hplain

theorem wc_unary {op : UnOp} {x : Expr} (h : wordCount w (x.toks P) = leafCount w ps (exprLeaves x)) (hk : KidsCounted w ps P x)
    (ho : ExprOnce w ps (.un op x)) : wordCount w (unaryToks P op x (x.toks P) (Expr.kids P x)) = leafCount w ps (exprLeaves x) := by
  have h0 : changes op = true → wordCount w (x.toks P) = 0 ∧ wordCount w (kid0 (Expr.kids P x)) = 0 := fun hc =>
    ⟨h.trans (ho.1 hc), wc_kid0 hk (ho.1 hc)⟩
  have h1 : wordCount w [.int 1 []] = 0 := rfl
  cases op <;> unfold unaryToks <;> dsimp only
  case deref => exact wc_deref hw hC hp h hk ho.2
  case addrOf =>
    subst hC
    simp only [wc_append, wc_trait hw, h, wc_fixed hw (ts := q!"ptr :: addr_of_mut ! (") (by decide), wc_fixed hw (ts := q!")") (by decide), Nat.zero_add, Nat.add_zero]
  case inc =>
    obtain ⟨h2, h3⟩ := h0 rfl
    rw [ho.1 rfl]
    split
    · simp only [wc_volatile hw hC, wc_append, wc_read hw hC, h3, h1, wc_fixed hw (ts := q!"+") (by decide), wc_fixed hw (ts := q!"value") (by decide)]
    · simp only [wc_append, h2, h1, wc_fixed hw (ts := q!"{") (by decide), wc_fixed hw (ts := q!"+=") (by decide), wc_fixed hw (ts := q!";") (by decide),
        wc_fixed hw (ts := q!"}") (by decide)]
  case dec =>
    obtain ⟨h2, h3⟩ := h0 rfl
    rw [ho.1 rfl]
    split
    · simp only [wc_volatile hw hC, wc_append, wc_read hw hC, h3, h1, wc_fixed hw (ts := q!"-") (by decide), wc_fixed hw (ts := q!"value") (by decide)]
    · simp only [wc_append, h2, h1, wc_fixed hw (ts := q!"{") (by decide), wc_fixed hw (ts := q!"-=") (by decide), wc_fixed hw (ts := q!";") (by decide),
        wc_fixed hw (ts := q!"}") (by decide)]
  case postInc =>
    obtain ⟨h2, h3⟩ := h0 rfl
    rw [ho.1 rfl]
    split
    · simp only [wc_volatile hw hC, wc_append, wc_read hw hC, h3, h1, wc_fixed hw (ts := q!"value +") (by decide)]
    · simp only [wc_append, h2, h1, wc_fixed hw (ts := q!"{ let prev =") (by decide), wc_fixed hw (ts := q!"+=") (by decide), wc_fixed hw (ts := q!";") (by decide),
        wc_fixed hw (ts := q!"; prev }") (by decide)]
  case postDec =>
    obtain ⟨h2, h3⟩ := h0 rfl
    rw [ho.1 rfl]
    split
    · simp only [wc_volatile hw hC, wc_append, wc_read hw hC, h3, h1, wc_fixed hw (ts := q!"value -") (by decide)]
    · simp only [wc_append, h2, h1, wc_fixed hw (ts := q!"{ let prev =") (by decide), wc_fixed hw (ts := q!"-=") (by decide), wc_fixed hw (ts := q!";") (by decide),
        wc_fixed hw (ts := q!"; prev }") (by decide)]
  case not => rw [wc_append, wc_parenIf hw, h, wc_fixed hw (by decide), Nat.zero_add]
  case comp => rw [wc_append, wc_parenIf hw, h, wc_fixed hw (by decide), Nat.zero_add]
  case plus => rw [wc_append, wc_parenIf hw, h, wc_fixed hw (by decide), Nat.zero_add]
  case minus => rw [wc_append, wc_parenIf hw, h, wc_fixed hw (by decide), Nat.zero_add]

omit hp in
theorem wc_binary {op : BinOp} {l r : Expr} (hl : wordCount w (l.toks P) = leafCount w ps (exprLeaves l)) (hk : KidsCounted w ps P l)
    (hr : wordCount w (r.toks P) = leafCount w ps (exprLeaves r)) (ho : ExprOnce w ps (.bin l op r)) :
    wordCount w (binaryToks P l op r (l.toks P) (r.toks P) (Expr.kids P l)) = leafCount w ps (exprLeaves l) + leafCount w ps (exprLeaves r) := by
  have ht : wordCount w [.punct op.text] = 0 := rfl
  unfold binaryToks
  split
  · rename_i hb
    have hy : yields op = true := by cases op <;> first | rfl | cases hb
    have h1 := ho.1 hy
    have h2 := wc_kid0 hk h1
    rw [h1] at hl
    split
    · rw [wc_volatile hw hC, h2, h1, wc_fixed hw (ts := q!"value") (by decide)]
      split
      · rw [hr]; omega
      · simp only [wc_append, wc_read hw hC, h2, hr, wc_fixed hw (ts := q!"+") (by decide)]; omega
    · simp only [wc_append, hl, hr, ht, h1, wc_fixed hw (ts := q!"{") (by decide), wc_fixed hw (ts := q!";") (by decide), wc_fixed hw (ts := q!"}") (by decide)]
      omega
  · simp only [wc_append, wc_parenIf hw, hl, hr, ht, Nat.add_zero]

theorem wc_cast {ty : Ty} {x : Expr} (h : wordCount w (x.toks P) = leafCount w ps (exprLeaves x)) (ht : TyOnce w ps ty) :
    wordCount w (castToks P ty x (x.toks P)) = leafCount w ps (tyLeaves ty) + leafCount w ps (exprLeaves x) := by
  have hz : x.isZeroLit = true → leafCount w ps (exprLeaves x) = 0 := by
    intro hx
    cases x with
    | lit l => rw [exprLeaves]; exact lc_lit l
    | _ => cases hx
  unfold castToks
  split
  · rename_i hc
    subst hC
    simp only [Bool.and_eq_true] at hc
    have : leafCount w ps (tyLeaves ty) = 0 := by
      unfold Ty.isConstPtr at hc
      split at hc
      · exact ht
      · cases hc.1
    rw [this, hz hc.2, wc_append, wc_trait hw, wc_fixed hw (by decide)]
  · split
    · rename_i hc
      subst hC
      simp only [Bool.and_eq_true] at hc
      have : leafCount w ps (tyLeaves ty) = 0 := by
        unfold Ty.isPlainPtr at hc
        split at hc
        · exact ht
        · cases hc.1
      rw [this, hz hc.2, wc_append, wc_trait hw, wc_fixed hw (by decide)]
    · split
      · rename_i hv
        have : leafCount w ps (tyLeaves ty) = 0 := by
          unfold Ty.isVoid at hv
          split at hv
          · rfl
          · cases hv
        rw [this, wc_append, wc_append, h, wc_fixed hw (ts := q!"{ let _ =") (by decide), wc_fixed hw (ts := q!"; }") (by decide)]
        omega
      · have hop : wordCount w (castOperand x (x.toks P)) = leafCount w ps (exprLeaves x) := by
          unfold castOperand
          split
          · rw [exprLeaves, lc_lit]
            unfold castLit
            repeat' (split; · rfl)
            rfl
          · rw [wc_parenIf hw, h]
        rw [wc_append, wc_append, hop, wc_ty hw hC hp, wc_fixed hw (ts := q!"as") (by decide)]
        omega

/-- The lists have the same counts. -/
theorem wc_callArgs {into : Bool} : ∀ {as : List Expr}, (Expr.toksL P as).map (wordCount w) = as.map (fun a => leafCount w ps (exprLeaves a)) →
    ((List.zipWith (callArgToks P into) as (Expr.toksL P as)).map (wordCount w)).sum = leafCount w ps (exprsLeaves as)
  | [], _ => rfl
  | a :: as, h => by
    simp only [Expr.toksL, List.map_cons, List.cons.injEq] at h
    simp only [Expr.toksL, List.zipWith_cons_cons, List.map_cons, List.sum_cons, exprsLeaves, lc_append, wc_callArgs h.2]
    congr 1
    unfold callArgToks
    have h1 : wordCount w (argNameToks P a) = 0 := by
      unfold argNameToks
      split
      · split <;> rfl
      · rfl
    rw [wc_append, h1, Nat.zero_add]
    split
    · exact h.1
    · split
      · unfold parenToks
        simp only [wc_append, h.1, wc_fixed hw (ts := q!"(") (by decide), wc_fixed hw (ts := q!")") (by decide), wc_fixed hw (ts := q!". into ( )") (by decide)]
        omega
      · exact h.1

theorem wc_call {n : IdentExpr} {as : List Expr} (h : (Expr.toksL P as).map (wordCount w) = as.map (fun a => leafCount w ps (exprLeaves a))) :
    wordCount w (callToks P n as (Expr.toksL P as)) = leafCount w ps (nameLeaves n) + leafCount w ps (exprsLeaves as) := by
  unfold callToks
  simp only [wc_append, wc_sep hw (sep := q!",") (by decide), wc_callArgs hw hC hp h, wc_fixed hw (ts := q!"(") (by decide), wc_fixed hw (ts := q!")") (by decide)]
  split
  · rename_i ho
    have : leafCount w ps (nameLeaves n) = 0 := by
      unfold isOffsetof at ho
      split at ho
      · simp only [Bool.and_eq_true, decide_eq_true_eq] at ho
        rw [ho.1]
        exact lc_names (xs := [c!"__builtin_offsetof"]) (by simp; rintro rfl; exact hw.own (by decide))
      · cases ho
    subst hC
    rw [this, wc_append, wc_trait hw, wc_fixed hw (by decide)]
    omega
  · rw [wc_name hw hC hp]; omega

theorem wc_parts : ∀ {as : List Expr}, ExprsOnce w ps as → (Expr.toksL P as).map (wordCount w) = as.map (fun a => leafCount w ps (exprLeaves a)) →
    ((List.zipWith (concatPartToks P) as (Expr.toksL P as)).map (wordCount w)).sum = leafCount w ps (exprsLeaves as)
  | [], _, _ => rfl
  | a :: as, ho, h => by
    simp only [Expr.toksL, List.map_cons, List.cons.injEq] at h
    simp only [ExprsOnce] at ho
    simp only [Expr.toksL, List.zipWith_cons_cons, List.map_cons, List.sum_cons, exprsLeaves, lc_append, wc_parts ho.2 h.2]
    congr 1
    unfold concatPartToks
    split
    · split
      · rename_i hid
        subst hid
        rw [wc_file hw hC hp, exprLeaves]
        exact (lc_names (xs := [c!"__FILE__"]) (by simp; rintro rfl; exact hw.own (by decide))).symm
      · exact h.1
    · rw [exprLeaves]
      have := ho.1
      rw [ExprOnce] at this
      exact wc_stringify hw hC hp this
    · exact h.1

mutual

theorem wc_expr : ∀ {e : Expr}, ExprOnce w ps e → wordCount w (e.toks P) = leafCount w ps (exprLeaves e)
  | .var n, _ => by rw [Expr.toks, exprLeaves]; exact wc_var hw hC hp n
  | .call n as, h => by
    rw [ExprOnce] at h
    rw [Expr.toks, exprLeaves, lc_append]
    exact wc_call hw hC hp (wc_exprs h)
  | .cast ty x, h => by
    rw [ExprOnce] at h
    rw [Expr.toks, exprLeaves, lc_append]
    exact wc_cast hw hC hp (wc_expr h.2) h.1
  | .lit l, _ => by rw [Expr.toks, exprLeaves, wc_lit hw hC hp, lc_lit]
  | .stringify n, h => by
    rw [ExprOnce] at h
    subst hC
    rw [Expr.toks, exprLeaves, wc_charPtr hw rfl]
    simp only [wc_append, wc_trait hw, wc_stringify hw rfl hp h, wc_fixed hw (ts := q!"concat ! (") (by decide), wc_fixed hw (ts := q!",") (by decide),
      wc_fixed hw (ts := q!")") (by decide), wc_fixed hw (ts := [.char '\x00']) (by decide), Nat.zero_add, Nat.add_zero]
  | .concatStr parts, h => by
    rw [ExprOnce] at h
    subst hC
    have h1 := wc_parts hw rfl hp h (wc_exprs h)
    rw [Expr.toks, exprLeaves, wc_charPtr hw rfl]
    simp only [wc_append, wc_trait hw, wc_sep hw (sep := q!",") (by decide), h1, wc_fixed hw (ts := q!"concat ! (") (by decide), wc_fixed hw (ts := q!",") (by decide),
      wc_fixed hw (ts := q!")") (by decide), wc_fixed hw (ts := [.char '\x00']) (by decide), Nat.zero_add, Nat.add_zero]
  | .sizeOf ty, _ => by
    subst hC
    rw [Expr.toks, exprLeaves]
    simp only [wc_append, wc_trait hw, wc_ty hw rfl hp, wc_builtIn hw, wc_fixed hw (ts := q!"mem :: size_of :: <") (by decide),
      wc_fixed hw (ts := q!"> ( ) as") (by decide), Nat.zero_add, Nat.add_zero]
  | .un op x, h => by
    have h' := h
    rw [ExprOnce] at h'
    rw [Expr.toks, exprLeaves]
    exact wc_unary hw hC hp (wc_expr h'.2) (wc_kids h'.2) h
  | .bin l op r, h => by
    have h' := h
    rw [ExprOnce] at h'
    rw [Expr.toks, exprLeaves, lc_append]
    exact wc_binary hw hC (wc_expr h'.2.1) (wc_kids h'.2.1) (wc_expr h'.2.2) h
  | .ternary c t f, h => by
    rw [ExprOnce] at h
    rw [Expr.toks, exprLeaves, lc_append, lc_append]
    simp only [wc_append, wc_expr h.1, wc_expr h.2.1, wc_expr h.2.2, wc_fixed hw (ts := q!"if") (by decide), wc_fixed hw (ts := q!"{") (by decide),
      wc_fixed hw (ts := q!"} else {") (by decide), wc_fixed hw (ts := q!"}") (by decide)]
    omega

theorem wc_exprs : ∀ {es : List Expr}, ExprsOnce w ps es → (Expr.toksL P es).map (wordCount w) = es.map (fun a => leafCount w ps (exprLeaves a))
  | [], _ => rfl
  | e :: es, h => by
    rw [ExprsOnce] at h
    rw [Expr.toksL, List.map_cons, List.map_cons, wc_expr h.1, wc_exprs h.2]

theorem wc_kids : ∀ {e : Expr}, ExprOnce w ps e → KidsCounted w ps P e
  | .un _ x, h => by rw [ExprOnce] at h; exact wc_expr (e := x) h.2
  | .bin l _ r, h => by rw [ExprOnce] at h; exact ⟨wc_expr (e := l) h.2.1, wc_expr (e := r) h.2.2⟩
  | .var _, _ => trivial
  | .call _ _, _ => trivial
  | .cast _ _, _ => trivial
  | .lit _, _ => trivial
  | .stringify _, _ => trivial
  | .concatStr _, _ => trivial
  | .sizeOf _, _ => trivial
  | .ternary _ _ _, _ => trivial

end

end

end CMacro
