import Verif.Spec.RustItem

/-!
# Lemmas for C95
-/

namespace CMacro
open Spec (nestStep closedBy closesGroup nesting Grouped upToClose atCommas followedBy nameFirst)

/-! ## Groups -/

/-- The text opens and closes its own groups only. -/
abbrev Bal (ts : List RTok) : Prop := ∀ st, nesting st ts = some st

/-- The same for all of them. -/
def BalL (k : List (List RTok)) : Prop := ∀ ts ∈ k, Bal ts

theorem nesting_cons (st : List RTok) (t : RTok) (ts : List RTok) : nesting st (t :: ts) = (nestStep st t).bind fun st => nesting st ts := rfl

theorem nesting_nil (st : List RTok) : nesting st [] = some st := rfl

theorem nesting_append : ∀ (a b st : List RTok), nesting st (a ++ b) = (nesting st a).bind fun st => nesting st b
  | [], _, _ => rfl
  | t :: a, b, st => by
    rw [List.cons_append, nesting_cons, nesting_cons, Option.bind_assoc]
    congr
    funext st
    exact nesting_append a b st

theorem nestStep_under {t : RTok} {a b : List RTok} (st : List RTok) (h : nestStep a t = some b) : nestStep (a ++ st) t = some (b ++ st) := by
  unfold nestStep at h ⊢
  cases hc : closedBy t with
  | some c =>
    rw [hc] at h
    cases h
    rfl
  | none =>
    rw [hc] at h
    dsimp only at h ⊢
    by_cases hcl : closesGroup t = true
    · rw [if_pos hcl] at h ⊢
      cases a with
      | nil => cases h
      | cons c a =>
        dsimp only [List.cons_append] at h ⊢
        by_cases he : c = t
        · rw [if_pos he] at h ⊢
          cases h
          rfl
        · rw [if_neg he] at h
          cases h
    · rw [if_neg hcl] at h ⊢
      cases h
      rfl

theorem bal_nil : Bal [] := fun _ => rfl

theorem bal_app {a b : List RTok} (ha : Bal a) (hb : Bal b) : Bal (a ++ b) := fun st => by
  rw [nesting_append, ha st]
  exact hb st

theorem nesting_under : ∀ (ts a b st : List RTok), nesting a ts = some b → nesting (a ++ st) ts = some (b ++ st)
  | [], a, b, st, h => by
    cases h
    rfl
  | t :: ts, a, b, st, h => by
    rw [nesting_cons] at h ⊢
    cases hs : nestStep a t with
    | none =>
      rw [hs] at h
      cases h
    | some a' =>
      rw [hs] at h
      rw [nestStep_under st hs]
      exact nesting_under ts a' b st h

theorem bal_iff {ts : List RTok} : Bal ts ↔ Grouped ts :=
  ⟨fun h => h [], fun h st => nesting_under ts [] [] st h⟩

/-- A token that is no bracket. -/
theorem bal_tok {t : RTok} (h1 : closedBy t = none) (h2 : closesGroup t = false) : Bal [t] := fun st => by
  simp only [nesting_cons, nesting_nil, nestStep, h1, h2, Bool.false_eq_true, if_false, Option.bind_some]

theorem bal_id (s : Str) : Bal [.id s] := bal_tok rfl rfl
theorem bal_int (v : Int) (s : Str) : Bal [.int v s] := bal_tok rfl rfl
theorem bal_char (c : Char) : Bal [.char c] := bal_tok rfl rfl
theorem bal_bytes (b : List UInt8) : Bal [.bytes b] := bal_tok rfl rfl
theorem bal_str (s : Str) : Bal [.str s] := bal_tok rfl rfl
theorem bal_opaque (s : Str) : Bal [.opaque s] := bal_tok rfl rfl
theorem bal_bad : Bal [.bad] := bal_tok rfl rfl

theorem bal_op (op : BinOp) : Bal [.punct op.text] := bal_tok (by cases op <;> rfl) (by cases op <;> rfl)

/-- Texts put together from such texts. -/
macro "bal" : tactic => `(tactic| (intro st; simp [nesting_append, nesting_nil, nesting_cons, nestStep, closedBy, closesGroup, *]))

theorem bal_paren {a : List RTok} (ha : Bal a) : Bal (parenToks a) := by
  unfold parenToks
  bal


theorem balL_nil : BalL [] := fun _ h => by cases h

theorem balL_cons {a : List RTok} {k : List (List RTok)} (ha : Bal a) (hk : BalL k) : BalL (a :: k) := fun ts h => by
  rcases List.mem_cons.1 h with rfl | h
  · exact ha
  · exact hk ts h

theorem balL_app {k k' : List (List RTok)} (hk : BalL k) (hk' : BalL k') : BalL (k ++ k') := fun ts h =>
  (List.mem_append.1 h).elim (hk ts) (hk' ts)

theorem balL_map {α : Type} {F : α → List RTok} {xs : List α} (h : ∀ x ∈ xs, Bal (F x)) : BalL (xs.map F) := fun ts ht => by
  obtain ⟨x, hx, rfl⟩ := List.mem_map.1 ht
  exact h x hx

theorem bal_kid0 {k : List (List RTok)} (h : BalL k) : Bal (kid0 k) := by
  cases k with
  | nil => exact bal_nil
  | cons a k => exact h a List.mem_cons_self

theorem bal_kid1 {k : List (List RTok)} (h : BalL k) : Bal (kid1 k) := by
  match k with
  | [] => exact bal_nil
  | [_] => exact bal_nil
  | a :: b :: k => exact h b (List.mem_cons_of_mem _ List.mem_cons_self)

theorem bal_sep {sep : List RTok} (hs : Bal sep) : ∀ {k : List (List RTok)}, BalL k → Bal (sepToks sep k)
  | [], _ => bal_nil
  | [a], h => h a List.mem_cons_self
  | a :: _ :: _, h => bal_app (bal_app (h a List.mem_cons_self) hs) (bal_sep hs fun ts ht => h ts (List.mem_cons_of_mem _ ht))

theorem bal_flatten : ∀ {k : List (List RTok)}, BalL k → Bal k.flatten
  | [], _ => bal_nil
  | a :: _, h => bal_app (h a List.mem_cons_self) (bal_flatten fun ts ht => h ts (List.mem_cons_of_mem _ ht))

theorem bal_comma : ∀ {k : List (List RTok)}, BalL k → Bal (commaToks k)
  | [], _ => bal_nil
  | a :: k, h => by
    have h1 := h a List.mem_cons_self
    have h2 := bal_comma fun ts ht => h ts (List.mem_cons_of_mem _ ht)
    show Bal (a ++ q!"," ++ commaToks k)
    bal

theorem balL_zip {α : Type} {F : α → List RTok → List RTok} (hF : ∀ x t, Bal t → Bal (F x t)) :
    ∀ (xs : List α) {k : List (List RTok)}, BalL k → BalL (List.zipWith F xs k)
  | [], _, _ => balL_nil
  | _ :: _, [], _ => balL_nil
  | x :: xs, a :: _, h => balL_cons (hF x a (h a List.mem_cons_self)) (balL_zip hF xs fun ts ht => h ts (List.mem_cons_of_mem _ ht))

theorem bal_ite {c : Prop} [Decidable c] {a b : List RTok} (ha : Bal a) (hb : Bal b) : Bal (if c then a else b) := by
  split
  · exact ha
  · exact hb

theorem bal_punct_sep : Bal q!"," := by bal
theorem bal_colons : Bal q!"::" := by bal
theorem bal_semi : Bal q!";" := by bal

/-! ## The printing functions -/

theorem bal_path (p : RPath) : Bal p.toks := by
  have : Bal (sepToks q!"::" (p.segs.map fun s => [.id s])) := bal_sep bal_colons (balL_map fun s _ => bal_id s)
  unfold RPath.toks
  exact bal_app (bal_ite bal_colons bal_nil) this

theorem bal_prefix (p : Option RPath) : Bal (prefixToks p) := by
  cases p with
  | none => exact bal_nil
  | some p => exact bal_app (bal_path p) bal_colons

theorem bal_rty : ∀ t : RTy, Bal t.toks
  | .ptr m t => by
    have := bal_rty t
    cases m <;> simp only [RTy.toks] <;> bal
  | .unit => by simp only [RTy.toks]; bal
  | .verbatim s => bal_opaque s
  | .path (.rich _ s) _ => bal_opaque s
  | .path .plain p => bal_path p
  | .other s => bal_opaque s

section
variable (P : PCtx)

theorem bal_static (t : List RTok) (h : Bal t) : Bal (staticRef P.L t) := by
  unfold staticRef
  refine bal_ite ?_ ?_ <;> bal

theorem bal_charPtr {t : List RTok} (h : Bal t) : Bal (charPtrToks P t) := by
  have h1 := bal_prefix P.C.ffiPrefix
  have h2 : Bal (staticRef P.L q!"[ u8 ]") := bal_static P _ (by bal)
  unfold charPtrToks
  bal

theorem bal_arg (i : Nat) : Bal (argToks P i) := by
  unfold argToks
  split
  · exact bal_bad
  · repeat' apply bal_ite
    all_goals bal

theorem bal_cont (c : IdentCont) : Bal (c.toks P) := by
  cases c with
  | arg i => exact bal_arg P i
  | plain id => exact bal_id id
  | int n => exact bal_int _ _

theorem bal_ident (n : IdentExpr) : Bal (n.toks P) := by
  cases n with
  | arg i => exact bal_arg P i
  | plain id => exact bal_id id
  | concat ids =>
    have h1 := bal_prefix P.C.traitPrefix
    have h2 : Bal (sepToks q!"," (ids.map (·.toks P))) := bal_sep bal_punct_sep (balL_map fun c _ => bal_cont P c)
    simp only [IdentExpr.toks]
    bal

theorem bal_segs (lc : Bool) (segs : List Str) : Bal ((if lc then q!"::" else []) ++ sepToks q!"::" (segs.map fun s => [.id s])) :=
  bal_app (bal_ite bal_colons bal_nil) (bal_sep bal_colons (balL_map fun s _ => bal_id s))

theorem bal_ty : ∀ t : Ty, Bal (t.toks P)
  | .builtIn b => by simp only [Ty.toks]; exact bal_rty _
  | .ident name s => by simp only [Ty.toks]; exact bal_ident P name
  | .path lc segs => by simp only [Ty.toks]; exact bal_segs lc segs
  | .ptr t => by
    have := bal_ty t
    simp only [Ty.toks]
    bal
  | .qualified t q => by
    cases t with
    | ptr t =>
      have := bal_ty t
      simp only [Ty.toks]
      refine bal_ite ?_ ?_ <;> bal
    | builtIn b => simp only [Ty.toks]; exact bal_rty _
    | ident name s => simp only [Ty.toks]; exact bal_ident P name
    | path lc segs => simp only [Ty.toks]; exact bal_segs lc segs
    | qualified t q => exact bal_ty (.qualified t q)

theorem bal_file : Bal (fileToks P) := by
  have := bal_prefix P.C.traitPrefix
  unfold fileToks
  bal

theorem bal_wchar : Bal (wcharToks P) := by
  unfold wcharToks
  split
  · split
    · exact bal_ty P _
    · exact bal_bad
  · exact bal_id _

theorem bal_array {k : List (List RTok)} (h : BalL k) : Bal (arrayToks k) := by
  have := bal_sep bal_punct_sep h
  unfold arrayToks
  bal

theorem bal_arrayTy {t : List RTok} (h : Bal t) (n : Nat) : Bal (arrayTy t n) := by
  unfold arrayTy
  bal

theorem bal_constPtr (s : Str) {t v : List RTok} (h : Bal t) (hv : Bal v) : Bal (constPtrToks s t v) := by
  unfold constPtrToks
  bal

theorem bal_string (s : LitString) (b : Bool) : Bal (s.toks P b).1 ∧ Bal (s.toks P b).2 := by
  have h1 := bal_prefix P.C.ffiPrefix
  have hw := bal_wchar P
  cases s with
  | ordinary bs =>
    have hs : Bal (staticRef P.L (q!"[ u8 ;" ++ [.int ((bs ++ [0]).length : Nat) []] ++ q!"]")) := bal_static P _ (by bal)
    have hp : Bal ((match P.C.traitPrefix with | some p => p.toks ++ q!":: ffi ::" | none => []) ++ q!"CStr") := by
      refine bal_app ?_ (bal_id _)
      split
      · rename_i p _
        have := bal_path p
        bal
      · exact bal_nil
    simp only [LitString.toks]
    split
    · split
      · dsimp only
        generalize (match P.C.traitPrefix with | some p => p.toks ++ q!":: ffi ::" | none => []) ++ q!"CStr" = x at hp ⊢
        constructor <;> bal
      · exact ⟨hs, bal_bytes _⟩
    · dsimp only
      generalize staticRef P.L (q!"[ u8 ;" ++ [.int ((bs ++ [0]).length : Nat) []] ++ q!"]") = x at hs ⊢
      constructor <;> bal
  | utf8 s =>
    simp only [LitString.toks]
    have ht := bal_arrayTy (t := q!"u8") (by bal) (utf8EncStr s ++ [0]).length
    split
    · exact ⟨ht, bal_bytes _⟩
    · exact ⟨by bal, bal_constPtr _ ht (bal_bytes _)⟩
  | utf16 s =>
    simp only [LitString.toks]
    have ht := bal_arrayTy (t := q!"u16") (by bal) (utf16Words s).length
    have hv : Bal (arrayToks ((utf16Words s).map fun (w : Nat) => [RTok.int w c!"u16"])) := bal_array (balL_map fun w _ => bal_int _ _)
    split
    · exact ⟨ht, hv⟩
    · exact ⟨by bal, bal_constPtr _ ht hv⟩
  | utf32 s =>
    simp only [LitString.toks]
    have ht := bal_arrayTy (t := q!"u32") (by bal) (s.map Char.toNat ++ [0]).length
    have hv : Bal (arrayToks ((s.map Char.toNat ++ [0]).map fun (w : Nat) => [RTok.int w c!"u32"])) := bal_array (balL_map fun w _ => bal_int _ _)
    split
    · exact ⟨ht, hv⟩
    · exact ⟨by bal, bal_constPtr _ ht hv⟩
  | wide ws =>
    simp only [LitString.toks]
    have ht := bal_arrayTy hw (ws ++ [0]).length
    have hv : Bal (arrayToks ((ws ++ [0]).map fun (w : Nat) => [RTok.int w []] ++ q!"as" ++ wcharToks P)) := bal_array (balL_map fun w _ => by bal)
    split
    · exact ⟨ht, hv⟩
    · exact ⟨by bal, bal_constPtr _ ht hv⟩

theorem bal_lit (l : Lit) : Bal (l.toks P) := by
  cases l with
  | string s => exact (bal_string P s false).2
  | char c => cases c <;> simp only [Lit.toks, LitChar.toks] <;> split <;> first | exact bal_char _ | exact bal_int _ _
  | float f => exact bal_tok rfl rfl
  | int i => exact bal_int _ _

theorem bal_stringify (n : IdentExpr) : Bal (stringifyInner P n) := by
  have h1 := bal_prefix P.C.traitPrefix
  have h2 := bal_file P
  cases n with
  | arg i =>
    cases h : P.L.argNames[i]? <;> simp only [stringifyInner, h] <;> bal
  | concat ids =>
    simp only [stringifyInner]
    bal
  | plain id =>
    simp only [stringifyInner]
    repeat' apply bal_ite
    all_goals bal

theorem bal_parenIf {b : Bool} {t : List RTok} (h : Bal t) : Bal (parenIf b t) := bal_ite (bal_paren h) h

theorem bal_readVolatile {t : List RTok} (h : Bal t) : Bal (readVolatile P t) := by
  have := bal_prefix P.C.traitPrefix
  unfold readVolatile
  bal

theorem bal_volatile {a b c : List RTok} (ha : Bal a) (hb : Bal b) (hc : Bal c) : Bal (volatileBlock P a b c) := by
  have := bal_prefix P.C.traitPrefix
  unfold volatileBlock
  bal

theorem bal_step {s : Str} {t : List RTok} (h : Bal t) : Bal (derefStep s t) := by
  unfold derefStep
  bal

theorem bal_deref {x : Expr} {t : List RTok} {k : List (List RTok)} (ht : Bal t) (hk : BalL k) : Bal (derefToks P x t k) := by
  have h0 := bal_kid0 hk
  have h1 := bal_kid1 hk
  have hp : ∀ b, Bal (parenIf b (kid0 k)) := fun _ => bal_parenIf h0
  have ha : ∀ s, Bal (derefStep s (kid0 k)) := fun _ => bal_step h0
  have plain : Bal (q!"*" ++ parenIf (decide (x.prec > 2)) t) := bal_app (by bal) (bal_parenIf ht)
  unfold derefToks
  split
  · exact bal_ite (bal_readVolatile P ht) plain
  · bal
  · bal
  · bal
  · bal
  · bal
  · bal
  · exact plain

theorem bal_unary {op : UnOp} {x : Expr} {t : List RTok} {k : List (List RTok)} (ht : Bal t) (hk : BalL k) : Bal (unaryToks P op x t k) := by
  have h0 := bal_kid0 hk
  have hp : ∀ b, Bal (parenIf b t) := fun _ => bal_parenIf ht
  have hr := bal_readVolatile P h0
  have ht' := bal_prefix P.C.traitPrefix
  cases op <;> simp only [unaryToks]
  case deref => exact bal_deref P ht hk
  case not => bal
  case comp => bal
  case plus => bal
  case minus => bal
  case addrOf => bal
  all_goals
    refine bal_ite (bal_volatile P h0 ?_ ?_) ?_ <;> bal

theorem bal_binary {l r : Expr} {op : BinOp} {a b : List RTok} {k : List (List RTok)} (ha : Bal a) (hb : Bal b) (hk : BalL k) :
    Bal (binaryToks P l op r a b k) := by
  have h0 := bal_kid0 hk
  have hr := bal_readVolatile P h0
  have ho := bal_op op
  unfold binaryToks
  refine bal_ite (bal_ite (bal_volatile P h0 (bal_ite hb ?_) (bal_id _)) ?_) (bal_app (bal_app (bal_parenIf ha) ho) (bal_parenIf hb))
  · bal
  · generalize [RTok.punct op.text] = o at ho ⊢
    bal

theorem bal_castLit (v : Int) : Bal (castLit v) := by
  unfold castLit
  repeat' apply bal_ite
  all_goals exact bal_int _ _

theorem bal_cast {t : Ty} {x : Expr} {a : List RTok} (ha : Bal a) : Bal (castToks P t x a) := by
  have ht := bal_ty P t
  have hp := bal_prefix P.C.traitPrefix
  have hx : Bal (castOperand x a) := by
    unfold castOperand
    split
    · exact bal_castLit _
    · exact bal_parenIf ha
  unfold castToks
  repeat' apply bal_ite
  all_goals bal

theorem bal_callArg {b : Bool} (x : Expr) (a : List RTok) (ha : Bal a) : Bal (callArgToks P b x a) := by
  have hp := bal_paren ha
  have hn : Bal (argNameToks P x) := by
    unfold argNameToks
    split
    · exact bal_ite bal_bad bal_nil
    · exact bal_nil
  unfold callArgToks
  refine bal_app hn (bal_ite ha (bal_ite ?_ ha))
  bal

theorem bal_call {n : IdentExpr} {as : List Expr} {k : List (List RTok)} (hk : BalL k) : Bal (callToks P n as k) := by
  have hn := bal_ident P n
  have hp := bal_prefix P.C.traitPrefix
  have hz := bal_sep bal_punct_sep (balL_zip (F := callArgToks P (!isOffsetof n as)) (fun x t h => bal_callArg P x t h) as hk)
  have hf : Bal (if isOffsetof n as then prefixToks P.C.traitPrefix ++ q!"mem :: offsetof !" else n.toks P) := bal_ite (by bal) hn
  simp only [callToks]
  generalize (if isOffsetof n as then prefixToks P.C.traitPrefix ++ q!"mem :: offsetof !" else n.toks P) = x at hf ⊢
  bal

theorem bal_part (e : Expr) (t : List RTok) (h : Bal t) : Bal (concatPartToks P e t) := by
  unfold concatPartToks
  split
  · exact bal_ite (bal_file P) h
  · exact bal_stringify P _
  · exact h

set_option linter.unusedSectionVars false

variable {P} (hC : ∀ id e, P.C.resolveEnumVariant id = some e → Grouped e.2)
include hC

theorem bal_var (n : IdentExpr) : Bal (varToks P n) := by
  have h1 := bal_prefix P.C.traitPrefix
  have h2 := bal_prefix P.C.ffiPrefix
  have h3 := bal_file P
  cases n with
  | arg i => exact bal_arg P i
  | concat ids => exact bal_ident P (.concat ids)
  | plain id =>
    simp only [varToks]
    refine bal_ite ?_ (bal_ite (bal_charPtr P ?_) ?_)
    · bal
    · bal
    · split
      · bal
      · split
        · rename_i e h
          exact bal_iff.2 (hC id _ h)
        · exact bal_id id

mutual

theorem bal_expr : ∀ e : Expr, Bal (e.toks P)
  | .var n => by simp only [Expr.toks]; exact bal_var hC n
  | .call n as => by
    simp only [Expr.toks]
    exact bal_call P (bal_exprs as)
  | .cast ty x => by
    simp only [Expr.toks]
    exact bal_cast P (bal_expr x)
  | .lit l => by simp only [Expr.toks]; exact bal_lit P l
  | .stringify n => by
    simp only [Expr.toks]
    have h := bal_stringify P n
    have hp := bal_prefix P.C.traitPrefix
    apply bal_charPtr
    bal
  | .concatStr parts => by
    simp only [Expr.toks]
    have h := bal_sep bal_punct_sep (balL_zip (F := concatPartToks P) (fun x f hf => bal_part P x f hf) parts (bal_exprs parts))
    have hp := bal_prefix P.C.traitPrefix
    apply bal_charPtr
    bal
  | .sizeOf ty => by
    simp only [Expr.toks]
    have h := bal_ty P ty
    have h2 := bal_rty (BuiltInType.sizeT.toRust P.C)
    have hp := bal_prefix P.C.traitPrefix
    bal
  | .un op x => by
    simp only [Expr.toks]
    exact bal_unary P (bal_expr x) (bal_kids x)
  | .bin l op r => by
    simp only [Expr.toks]
    exact bal_binary P (bal_expr l) (bal_expr r) (bal_kids l)
  | .ternary c t f => by
    simp only [Expr.toks]
    have h1 := bal_expr c
    have h2 := bal_expr t
    have h3 := bal_expr f
    clear hC
    bal

theorem bal_exprs : ∀ es : List Expr, BalL (Expr.toksL P es)
  | [] => by simp only [Expr.toksL]; exact balL_nil
  | e :: es => by
    simp only [Expr.toksL]
    exact balL_cons (bal_expr e) (bal_exprs es)

theorem bal_kids : ∀ e : Expr, BalL (Expr.kids P e)
  | .un _ x => by
    simp only [Expr.kids]
    exact balL_cons (bal_expr x) balL_nil
  | .bin l _ r => by
    simp only [Expr.kids]
    exact balL_cons (bal_expr l) (balL_cons (bal_expr r) balL_nil)
  | .var _ => by simp only [Expr.kids]; exact balL_nil
  | .call _ _ => by simp only [Expr.kids]; exact balL_nil
  | .cast _ _ => by simp only [Expr.kids]; exact balL_nil
  | .lit _ => by simp only [Expr.kids]; exact balL_nil
  | .stringify _ => by simp only [Expr.kids]; exact balL_nil
  | .concatStr _ => by simp only [Expr.kids]; exact balL_nil
  | .sizeOf _ => by simp only [Expr.kids]; exact balL_nil
  | .ternary _ _ _ => by simp only [Expr.kids]; exact balL_nil

end

omit hC in
theorem bal_reg (r : RegConstraint) : Bal r.toks := by
  cases r with
  | digit n => exact bal_int _ _
  | _ => exact bal_id _

omit hC in
theorem bal_asmText {p x1 x2 x3 x4 x5 x6 x7 : List RTok} (hp : Bal p) (h1 : Bal x1) (h2 : Bal x2) (h3 : Bal x3) (h4 : Bal x4) (h5 : Bal x5) (h6 : Bal x6)
    (h7 : Bal x7) : Bal (p ++ q!"arch ::" ++ x1 ++ q!"(" ++ x2 ++ x3 ++ x4 ++ x5 ++ x6 ++ x7 ++ q!")") := by bal

omit hC in
theorem bal_options {x : List RTok} (h : Bal x) : Bal (q!"options (" ++ x ++ q!") ,") := by bal

omit hC in
theorem bal_opts (b g c d : Bool) : BalL ((if b then [q!"att_syntax"] else []) ++ (if g then [] else (if c then [] else [q!"nomem"])
    ++ (if d then [] else [q!"preserves_flags"]))) := by
  have h : ∀ s, BalL [[RTok.id s]] := fun s => balL_cons (bal_id s) balL_nil
  refine balL_app ?_ ?_
  · cases b
    · exact balL_nil
    · exact h _
  · cases g <;> cases c <;> cases d <;> first | exact balL_nil | exact h _ | exact balL_app (h _) (h _)

theorem bal_asm (a : Asm) : Bal (a.toks P) := by
  unfold Asm.toks
  split
  · exact bal_bad
  · rename_i outs ins _
    have h1 : Bal (commaToks (outs.map fun (d, r, e) => d.toks ++ q!"(" ++ r.toks ++ q!")" ++ e.toks P)) := bal_comma (balL_map fun x _ => by
      have h1 := bal_reg x.2.1
      have h2 := bal_expr hC x.2.2
      have h3 : Bal x.1.toks := by
        cases x.1 <;> exact bal_id _
      clear hC
      dsimp only
      bal)
    have h2 : Bal (commaToks (ins.map fun (r, e) => q!"in (" ++ r.toks ++ q!")" ++ e.toks P)) := bal_comma (balL_map fun x _ => by
      have h1 := bal_reg x.1
      have h2 := bal_expr hC x.2
      clear hC
      dsimp only
      bal)
    clear hC
    dsimp only
    have h3 : Bal (commaToks (a.template.map fun t => [.str t])) := bal_comma (balL_map fun x _ => bal_str x)
    have h4 : ∀ k : List Str, Bal (commaToks (k.map fun c => q!"out (" ++ [.str c] ++ q!") _")) := fun k => bal_comma (balL_map fun x _ => by bal)
    have hp := bal_prefix P.C.traitPrefix
    refine bal_asmText hp (bal_ite (by bal) (by bal)) h3 h1 h2 (h4 _) (bal_ite bal_nil (by bal)) (bal_ite bal_nil ?_)
    have h6 := bal_opts a.isAtt a.isGlobal ((a.clobbers.foldl (fun s x => insertStr x s) []).contains c!"memory")
      ((a.clobbers.foldl (fun s x => insertStr x s) []).contains c!"cc")
    exact bal_options (bal_sep bal_punct_sep h6)

theorem bal_fnDecl (d : FunctionDecl) : Bal (d.toks P) := by
  clear hC
  have h1 : Bal (sepToks q!"," (d.args.map fun (t, n) => n.toks P ++ q!":" ++ t.toks P)) := bal_sep bal_punct_sep (balL_map fun x _ => by
    have h1 := bal_ident P x.2
    have h2 := bal_ty P x.1
    dsimp only
    bal)
  have h2 := bal_ident P d.name
  have h3 := bal_ty P d.retTy
  unfold FunctionDecl.toks
  generalize sepToks q!"," (d.args.map fun (t, n) => n.toks P ++ q!":" ++ t.toks P) = x at h1 ⊢
  bal

theorem bal_varDecl (d : VarDecl) : Bal (d.toks P) := by
  have h1 := bal_expr hC d.rhs
  have h2 := bal_ident P d.name
  have h3 := bal_ty P d.ty
  clear hC
  have h4 : Bal (if d.isStatic then q!"static mut" else q!"let mut") := bal_ite (by bal) (by bal)
  unfold VarDecl.toks
  generalize (if d.isStatic then q!"static mut" else q!"let mut") = x at h4 ⊢
  bal

mutual

theorem bal_stmt : ∀ s : Stmt, Bal (s.toks P)
  | .asm a => by
    simp only [Stmt.toks]
    exact bal_app (bal_asm hC a) bal_semi
  | .expr e => by
    simp only [Stmt.toks]
    exact bal_app (bal_expr hC e) bal_semi
  | .fnDecl d => by simp only [Stmt.toks]; exact bal_fnDecl hC d
  | .varDecl d => by
    simp only [Stmt.toks]
    exact bal_app (bal_varDecl hC d) bal_semi
  | .block ss => by
    simp only [Stmt.toks]
    have h := bal_flatten (bal_stmts ss)
    clear hC
    bal
  | .ite c t f => by
    have h1 := bal_expr hC c
    have h2 := bal_flatten (bal_stmts t)
    have h3 := bal_sep bal_semi (bal_stmts f)
    clear hC
    cases f with
    | nil =>
      simp only [Stmt.toks]
      bal
    | cons x xs =>
      simp only [Stmt.toks]
      bal
  | .doWhile b c => by
    simp only [Stmt.toks]
    have h1 := bal_expr hC c
    have h2 := bal_flatten (bal_stmts b)
    clear hC
    bal

theorem bal_stmts : ∀ ss : List Stmt, BalL (Stmt.toksL P ss)
  | [] => by simp only [Stmt.toksL]; exact balL_nil
  | s :: ss => by
    simp only [Stmt.toksL]
    exact balL_cons (bal_stmt s) (bal_stmts ss)

end

theorem bal_body (b : MacroBody) : Bal (b.toks P) := by
  cases b with
  | expr e => exact bal_expr hC e
  | stmt s => exact bal_stmt hC s

end

/-! ## Reading -/

theorem upTo_open {t : RTok} {c : RTok} (h : closedBy t = some c) (d : Nat) (ts : List RTok) :
    upToClose d (t :: ts) = (upToClose (d + 1) ts).map fun r => (t :: r.1, r.2) := by
  simp only [upToClose, h, Option.isSome_some, if_true]

theorem upTo_other {t : RTok} (h : closedBy t = none) (hc : closesGroup t = false) (d : Nat) (ts : List RTok) :
    upToClose d (t :: ts) = (upToClose d ts).map fun r => (t :: r.1, r.2) := by
  cases d <;> simp [upToClose, h, hc]

theorem upTo_close {t : RTok} (h : closedBy t = none) (hc : closesGroup t = true) (d : Nat) (ts : List RTok) :
    upToClose (d + 1) (t :: ts) = (upToClose d ts).map fun r => (t :: r.1, r.2) := by
  simp [upToClose, h, hc]

theorem upTo_nesting : ∀ (ts st st' : List RTok) (d : Nat) (rest : List RTok), nesting st ts = some st' →
    upToClose (st.length + d) (ts ++ rest) = (upToClose (st'.length + d) rest).map fun r => (ts ++ r.1, r.2)
  | [], st, st', d, rest, h => by
    cases h
    rw [List.nil_append]
    cases upToClose (st.length + d) rest <;> rfl
  | t :: ts, st, st', d, rest, h => by
    rw [nesting_cons] at h
    rw [List.cons_append]
    unfold nestStep at h
    cases hc : closedBy t with
    | some c =>
      rw [hc] at h
      have ih := upTo_nesting ts (c :: st) st' d rest h
      rw [upTo_open hc]
      have e : st.length + d + 1 = (c :: st).length + d := by simp only [List.length_cons]; omega
      rw [e, ih, Option.map_map]
      rfl
    | none =>
      rw [hc] at h
      dsimp only at h
      cases hcl : closesGroup t with
      | true =>
        rw [hcl, if_pos rfl] at h
        cases st with
        | nil => cases h
        | cons c st =>
          dsimp only at h
          split at h
          · have ih := upTo_nesting ts st st' d rest h
            have e : (c :: st).length + d = st.length + d + 1 := by simp only [List.length_cons]; omega
            rw [e, upTo_close hc hcl, ih, Option.map_map]
            rfl
          · cases h
      | false =>
        rw [hcl] at h
        have ih := upTo_nesting ts st st' d rest h
        rw [upTo_other hc hcl, ih, Option.map_map]
        rfl

/-- A group ends where its text ends. -/
theorem upTo_bal {a : List RTok} (h : Bal a) {c : RTok} (hc : closedBy c = none) (hcl : closesGroup c = true) (rest : List RTok) :
    upToClose 0 (a ++ c :: rest) = some (a, rest) := by
  have := upTo_nesting a [] [] 0 (c :: rest) (h [])
  simp only [List.length_nil, Nat.zero_add] at this
  rw [this]
  simp [upToClose, hc, hcl]

/-- The text has no comma outside of groups. -/
def Part (ts : List RTok) : Prop := ∀ acc rest, atCommas 0 acc (ts ++ rest) = atCommas 0 (acc ++ ts) rest

theorem part_nil : Part [] := fun acc rest => by simp

theorem part_app {a b : List RTok} (ha : Part a) (hb : Part b) : Part (a ++ b) := fun acc rest => by
  rw [List.append_assoc, ha, hb, List.append_assoc]

theorem part_tok {t : RTok} (h : closedBy t = none) (hc : closesGroup t = false) (ht : t ≠ .punct c!",") : Part [t] := fun acc rest => by
  simp [atCommas, h, hc, ht]

theorem atCommas_nesting : ∀ (ts st st' : List RTok) (d : Nat) (acc rest : List RTok), nesting st ts = some st' →
    atCommas (st.length + d + 1) acc (ts ++ rest) = atCommas (st'.length + d + 1) (acc ++ ts) rest
  | [], st, st', d, acc, rest, h => by
    cases h
    simp
  | t :: ts, st, st', d, acc, rest, h => by
    rw [nesting_cons] at h
    rw [List.cons_append]
    have e : acc ++ t :: ts = acc ++ [t] ++ ts := by simp
    rw [e]
    unfold nestStep at h
    cases hc : closedBy t with
    | some c =>
      rw [hc] at h
      have ih := atCommas_nesting ts (c :: st) st' d (acc ++ [t]) rest h
      rw [← ih]
      have e : st.length + d + 1 + 1 = (c :: st).length + d + 1 := by simp only [List.length_cons]; omega
      rw [← e]
      simp [atCommas, hc]
    | none =>
      rw [hc] at h
      dsimp only at h
      cases hcl : closesGroup t with
      | true =>
        rw [hcl, if_pos rfl] at h
        cases st with
        | nil => cases h
        | cons c st =>
          dsimp only at h
          split at h
          · have ih := atCommas_nesting ts st st' d (acc ++ [t]) rest h
            rw [← ih]
            have e : (c :: st).length + d + 1 - 1 = st.length + d + 1 := by simp only [List.length_cons]; omega
            simp [atCommas, hc, hcl, ← e]
          · cases h
      | false =>
        rw [hcl] at h
        have ih := atCommas_nesting ts st st' d (acc ++ [t]) rest h
        rw [← ih]
        simp [atCommas, hc, hcl]

/-- Groups. -/
theorem part_group {o c : RTok} {a : List RTok} (ho : closedBy o = some c) (hc : closedBy c = none) (hcl : closesGroup c = true) (ha : Bal a) :
    Part ([o] ++ a ++ [c]) := fun acc rest => by
  have ho' : o ≠ .punct c!"," := by
    rintro rfl
    cases ho
  have hc' : c ≠ .punct c!"," := by
    rintro rfl
    cases hcl
  have := atCommas_nesting a [] [] 0 (acc ++ [o]) (c :: rest) (ha [])
  simp only [List.length_nil, Nat.zero_add] at this
  simp only [List.append_assoc, List.cons_append, List.nil_append]
  rw [atCommas, if_neg (by simp [ho']), if_pos (by simp [ho]), this, atCommas, if_neg (by simp), if_neg (by simp [hc]), if_pos hcl]
  simp

/-- Parts between commas. -/
theorem atCommas_sep : ∀ (k : List (List RTok)), (∀ a ∈ k, Part a ∧ a ≠ []) → atCommas 0 [] (sepToks q!"," k) = k
  | [], _ => rfl
  | [a], h => by
    have := (h a List.mem_cons_self).1 [] []
    rw [List.append_nil, List.nil_append] at this
    show atCommas 0 [] a = [a]
    rw [this]
    cases a with
    | nil => exact absurd rfl (h [] List.mem_cons_self).2
    | cons t ts => rfl
  | a :: b :: k, h => by
    have ih := atCommas_sep (b :: k) fun x hx => h x (List.mem_cons_of_mem _ hx)
    have := (h a List.mem_cons_self).1 [] (q!"," ++ sepToks q!"," (b :: k))
    show atCommas 0 [] (a ++ q!"," ++ sepToks q!"," (b :: k)) = _
    rw [List.append_assoc, this, List.nil_append]
    show atCommas 0 a (.punct c!"," :: sepToks q!"," (b :: k)) = _
    rw [atCommas, if_pos ⟨rfl, rfl⟩, ih]

/-- The text of a type. -/
structure TyText (ts : List RTok) : Prop where
  part : Part ts
  flat : ∀ t ∈ ts, t ≠ .punct c!"{"

theorem tyText_nil : TyText [] := ⟨part_nil, fun _ h => by cases h⟩

theorem tyText_app {a b : List RTok} (ha : TyText a) (hb : TyText b) : TyText (a ++ b) :=
  ⟨part_app ha.part hb.part, fun t h => (List.mem_append.1 h).elim (ha.flat t) (hb.flat t)⟩

theorem tyText_tok {t : RTok} (h : closedBy t = none) (hc : closesGroup t = false) (ht : t ≠ .punct c!",") : TyText [t] :=
  ⟨part_tok h hc ht, fun x hx => by
    rw [List.mem_singleton] at hx
    rintro rfl
    rw [← hx] at h
    cases h⟩

theorem tyText_id (s : Str) : TyText [.id s] := tyText_tok rfl rfl (by simp)
theorem tyText_opaque (s : Str) : TyText [.opaque s] := tyText_tok rfl rfl (by simp)
theorem tyText_star : TyText q!"*" := tyText_tok rfl rfl (by simp)
theorem tyText_colons : TyText q!"::" := tyText_tok rfl rfl (by simp)

theorem tyText_ite {c : Prop} [Decidable c] {a b : List RTok} (ha : TyText a) (hb : TyText b) : TyText (if c then a else b) := by
  split
  · exact ha
  · exact hb

theorem tyText_segs : ∀ (segs : List Str), TyText (sepToks q!"::" (segs.map fun s => [.id s]))
  | [] => tyText_nil
  | [s] => tyText_id s
  | s :: r :: segs => tyText_app (tyText_app (tyText_id s) tyText_colons) (tyText_segs (r :: segs))

theorem tyText_path (p : RPath) : TyText p.toks := tyText_app (tyText_ite tyText_colons tyText_nil) (tyText_segs p.segs)

theorem tyText_rty : ∀ t : RTy, TyText t.toks
  | .ptr m t => by
    simp only [RTy.toks]
    exact tyText_app (tyText_app tyText_star (tyText_ite (tyText_id _) (tyText_id _))) (tyText_rty t)
  | .unit => by
    refine ⟨part_group (o := .punct c!"(") (c := .punct c!")") rfl rfl rfl bal_nil, fun t h => ?_⟩
    simp [RTy.toks] at h
    rcases h with rfl | rfl <;> simp
  | .verbatim s => tyText_opaque s
  | .path (.rich _ s) _ => tyText_opaque s
  | .path .plain p => tyText_path p
  | .other s => tyText_opaque s

section
variable {P : PCtx} (hP : c!"..." ∉ P.L.argNames)
include hP

theorem tyText_arg (i : Nat) : TyText (argToks P i) := by
  unfold argToks
  split
  · exact tyText_tok rfl rfl (by simp)
  · rename_i n h
    have hn : n ≠ c!"..." := fun e => hP (e ▸ List.mem_of_getElem? h)
    rw [if_neg hn]
    exact tyText_ite (tyText_app (tyText_tok rfl rfl (by simp)) (tyText_id n)) (tyText_id n)

theorem flat_cont (c : IdentCont) : ∀ t ∈ c.toks P, t ≠ .punct c!"{" := by
  cases c with
  | arg i => exact (tyText_arg hP i).flat
  | plain id => exact (tyText_id id).flat
  | int n =>
    intro t h
    simp [IdentCont.toks, LitInt.toks] at h
    rw [h]
    simp

omit hP in
theorem flat_sep {sep : List RTok} (hs : ∀ t ∈ sep, t ≠ .punct c!"{") : ∀ {k : List (List RTok)}, (∀ a ∈ k, ∀ t ∈ a, t ≠ .punct c!"{") →
    ∀ t ∈ sepToks sep k, t ≠ .punct c!"{"
  | [], _, _, h => by cases h
  | [a], hk, t, h => hk a List.mem_cons_self t h
  | a :: b :: k, hk, t, h => by
    rcases List.mem_append.1 h with h | h
    · exact (List.mem_append.1 h).elim (hk a List.mem_cons_self t) (hs t)
    · exact flat_sep hs (fun x hx => hk x (List.mem_cons_of_mem _ hx)) t h

theorem tyText_ident (n : IdentExpr) : TyText (n.toks P) := by
  cases n with
  | arg i => exact tyText_arg hP i
  | plain id => exact tyText_id id
  | concat ids =>
    have hb : Bal (sepToks q!"," (ids.map (·.toks P))) := bal_sep bal_punct_sep (balL_map fun c _ => bal_cont P c)
    have hf : ∀ t ∈ sepToks q!"," (ids.map (·.toks P)), t ≠ .punct c!"{" := by
      refine flat_sep (fun t h => ?_) fun a ha => ?_
      · rw [List.mem_singleton] at h
        rw [h]
        simp
      · obtain ⟨c, _, rfl⟩ := List.mem_map.1 ha
        exact flat_cont hP c
    have hp : TyText (prefixToks P.C.traitPrefix) := by
      cases P.C.traitPrefix with
      | none => exact tyText_nil
      | some p => exact tyText_app (tyText_path p) tyText_colons
    simp only [IdentExpr.toks]
    have hg : TyText ([.punct c!"("] ++ sepToks q!"," (ids.map (·.toks P)) ++ [.punct c!")"]) := by
      refine ⟨part_group rfl rfl rfl hb, fun t h => ?_⟩
      simp only [List.mem_append, List.mem_singleton] at h
      rcases h with (rfl | h) | rfl
      · simp
      · exact hf t h
      · simp
    have := tyText_app (tyText_app hp (tyText_app (tyText_id c!"concat_idents") (tyText_tok (t := .punct c!"!") rfl rfl (by simp)))) hg
    simpa using this

theorem tyText_ty : ∀ t : Ty, TyText (t.toks P)
  | .builtIn b => by simp only [Ty.toks]; exact tyText_rty _
  | .ident name s => by simp only [Ty.toks]; exact tyText_ident hP name
  | .path lc segs => by simp only [Ty.toks]; exact tyText_app (tyText_ite tyText_colons tyText_nil) (tyText_segs segs)
  | .ptr t => by
    simp only [Ty.toks]
    exact tyText_app (tyText_app tyText_star (tyText_id c!"mut")) (tyText_ty t)
  | .qualified t q => by
    cases t with
    | ptr t =>
      simp only [Ty.toks]
      exact tyText_ite (tyText_app (tyText_app tyText_star (tyText_id c!"const")) (tyText_ty t)) (tyText_app (tyText_app tyText_star (tyText_id c!"mut")) (tyText_ty t))
    | builtIn b => simp only [Ty.toks]; exact tyText_rty _
    | ident name s => simp only [Ty.toks]; exact tyText_ident hP name
    | path lc segs => simp only [Ty.toks]; exact tyText_app (tyText_ite tyText_colons tyText_nil) (tyText_segs segs)
    | qualified t q => exact tyText_ty (.qualified t q)

end

/-! ## Items -/

section
open Spec (RustItem readAttrs readRules readUse readRet readFn readItem readItems itemsOf readMatcher fnParamName Provides)

theorem after_app : ∀ (a b : List RTok), followedBy a (a ++ b) = some b
  | [], b => rfl
  | t :: a, b => by
    rw [List.cons_append, followedBy, if_pos rfl]
    exact after_app a b

theorem attr_read (n : Nat) {a : List RTok} (ha : Bal a) (r : List RTok) :
    readAttrs (n + 1) (q!"# [" ++ a ++ q!"]" ++ r) = (a :: (readAttrs n r).1, (readAttrs n r).2) := by
  have h1 : followedBy [.punct c!"#", .punct c!"["] (q!"# [" ++ a ++ q!"]" ++ r) = some (a ++ .punct c!"]" :: r) := by
    have := after_app [.punct c!"#", .punct c!"["] (a ++ .punct c!"]" :: r)
    simpa using this
  rw [readAttrs, h1]
  dsimp only
  rw [upTo_bal ha rfl rfl]

theorem attr_none (n : Nat) {r : List RTok} (h : followedBy [.punct c!"#", .punct c!"["] r = none) : readAttrs n r = ([], r) := by
  cases n with
  | zero => rfl
  | succ n => rw [readAttrs, h]

theorem rules_read (attrs : List (List RTok)) (name : Str) {a b : List RTok} (ha : Bal a) (hb : Bal b) (r : List RTok) :
    readRules attrs (q!"macro_rules !" ++ [.id name] ++ q!"{ (" ++ a ++ q!") => {" ++ b ++ q!"} ; }" ++ r) = some (.rules attrs name a b, r) := by
  simp only [readRules, List.append_assoc, List.cons_append, List.nil_append, nameFirst, Option.bind_eq_bind, Option.bind_some, followedBy, if_true]
  rw [upTo_bal ha rfl rfl]
  simp only [Option.bind_some, followedBy, if_true]
  rw [upTo_bal hb rfl rfl]
  simp only [Option.bind_some, followedBy, if_true]

theorem use_read (name new : Str) : readUse (q!"pub use" ++ [.id name] ++ q!"as" ++ [.id new] ++ q!";") = some (.reexport name new, []) := by
  simp [readUse, followedBy, nameFirst]

theorem fn_read (attrs : List (List RTok)) (name : Str) {a b : List RTok} (ha : Bal a) (hb : Bal b) (ret : Option (List RTok))
    (hr : ∀ t ∈ ret, TyText t) :
    readFn attrs (q!"pub unsafe extern" ++ [.str c!"C"] ++ q!"fn" ++ [.id name] ++ q!"(" ++ a ++ q!")"
      ++ (match ret with | some t => q!"->" ++ t | none => []) ++ q!"{" ++ b ++ q!"}") = some (.fn attrs name (atCommas 0 [] a) ret b, []) := by
  have key : ∀ x : List RTok, readRet x = (ret, .punct c!"{" :: (b ++ [.punct c!"}"])) →
      readFn attrs (q!"pub unsafe extern" ++ [.str c!"C"] ++ q!"fn" ++ [.id name] ++ q!"(" ++ a ++ q!")" ++ x)
        = some (.fn attrs name (atCommas 0 [] a) ret b, []) := by
    intro x hx
    simp only [readFn, List.append_assoc, List.cons_append, List.nil_append, nameFirst, Option.bind_eq_bind, Option.bind_some, followedBy, if_true]
    rw [upTo_bal ha rfl rfl]
    simp only [Option.bind_some, hx, followedBy, if_true]
    rw [upTo_bal hb rfl rfl]
    rfl
  cases ret with
  | none =>
    have := key (q!"{" ++ b ++ q!"}") (by simp [readRet, followedBy])
    simpa using this
  | some t =>
    have ht : ∀ x ∈ t, (decide (x ≠ .punct c!"{")) = true := fun x hx => decide_eq_true ((hr t rfl).flat x hx)
    have := key (q!"->" ++ t ++ q!"{" ++ b ++ q!"}") (by
      simp only [readRet, List.append_assoc, List.cons_append, List.nil_append, followedBy, if_true]
      rw [List.takeWhile_append_of_pos ht, List.dropWhile_append_of_pos ht]
      simp)
    simpa using this

/-- The items of a macro. -/
theorem items_macro (name : Str) {params : List (List RTok)} {body : List RTok} (hp : Bal (sepToks q!"," params)) (hb : Bal body) :
    itemsOf (GenFn.macro name params body).toks = some [.rules [q!"doc ( hidden )", q!"macro_export"] (c!"__cmacro__" ++ name) (sepToks q!"," params) body,
      .reexport (c!"__cmacro__" ++ name) name] := by
  generalize hx : q!"pub use" ++ [.id (c!"__cmacro__" ++ name)] ++ q!"as" ++ [.id name] ++ q!";" = last
  have hu := use_read (c!"__cmacro__" ++ name) name
  rw [hx] at hu
  have hl : followedBy [.punct c!"#", .punct c!"["] last = none := by rw [← hx]; rfl
  have hr : ∀ a, readRules a last = none := by intro a; rw [← hx]; rfl
  have hrd := fun a => rules_read a (c!"__cmacro__" ++ name) hp hb last
  generalize hy : q!"macro_rules !" ++ [.id (c!"__cmacro__" ++ name)] ++ q!"{ (" ++ sepToks q!"," params ++ q!") => {" ++ body ++ q!"} ; }" ++ last = item at hrd
  have hi : followedBy [.punct c!"#", .punct c!"["] item = none := by rw [← hy]; simp [followedBy]
  have e : (GenFn.macro name params body).toks = q!"# [" ++ q!"doc ( hidden )" ++ q!"]" ++ (q!"# [" ++ q!"macro_export" ++ q!"]" ++ item) := by
    rw [← hy, ← hx]
    simp [GenFn.toks]
  have hne : last ≠ [] := by rw [← hx]; simp
  have h1 : readItem (q!"# [" ++ q!"doc ( hidden )" ++ q!"]" ++ (q!"# [" ++ q!"macro_export" ++ q!"]" ++ item))
      = some (.rules [q!"doc ( hidden )", q!"macro_export"] (c!"__cmacro__" ++ name) (sepToks q!"," params) body, last) := by
    have hlen : ∃ n, (q!"# [" ++ q!"doc ( hidden )" ++ q!"]" ++ (q!"# [" ++ q!"macro_export" ++ q!"]" ++ item)).length = n + 1 + 1 := ⟨_, rfl⟩
    obtain ⟨n, hn⟩ := hlen
    rw [readItem, hn, attr_read _ (by bal), attr_read _ (by bal), attr_none _ hi]
    dsimp only
    rw [hrd]
    rfl
  have h2 : readItem last = some (.reexport (c!"__cmacro__" ++ name) name, []) := by
    rw [readItem, attr_none _ hl]
    dsimp only
    rw [hr, hu]
    rfl
  have hlen : ∃ n, (q!"# [" ++ q!"doc ( hidden )" ++ q!"]" ++ (q!"# [" ++ q!"macro_export" ++ q!"]" ++ item)).length = n + 1 + 1 := ⟨_, rfl⟩
  obtain ⟨n, hn⟩ := hlen
  rw [e, itemsOf, hn]
  rw [readItems]
  · rw [h1]
    simp only [Option.bind_eq_bind, Option.bind_some]
    rw [readItems]
    · rw [h2]
      simp only [Option.bind_eq_bind, Option.bind_some, readItems]
    · exact hne
  · simp

/-- The items of a function. -/
theorem items_fn (name : Str) {args : List (List RTok)} {ret : Option (List RTok)} {body : List RTok} (hp : ∀ a ∈ args, Bal a ∧ TyText a)
    (hr : ∀ t ∈ ret, TyText t) (hb : Bal body) :
    itemsOf (GenFn.fn name args ret body).toks = some [.fn [q!"allow ( non_snake_case , unused_mut , unsafe_code )", q!"inline ( always )"] name
      (args.map (q!"mut" ++ ·)) ret (body ++ if ret.isNone then q!";" else [])] := by
  have hb' : Bal (body ++ if ret.isNone then q!";" else []) := bal_app hb (bal_ite bal_semi bal_nil)
  have ha : Bal (sepToks q!"," (args.map (q!"mut" ++ ·))) := bal_sep bal_punct_sep (balL_map fun x hx => bal_app (bal_id _) (hp x hx).1)
  have hc : atCommas 0 [] (sepToks q!"," (args.map (q!"mut" ++ ·))) = args.map (q!"mut" ++ ·) := by
    refine atCommas_sep _ fun a h => ?_
    obtain ⟨x, hx, rfl⟩ := List.mem_map.1 h
    exact ⟨part_app (tyText_id _).part (hp x hx).2.part, by simp⟩
  have hf := fun attrs => fn_read attrs name ha hb' ret hr
  rw [hc] at hf
  generalize hy : q!"pub unsafe extern" ++ [.str c!"C"] ++ q!"fn" ++ [.id name] ++ q!"(" ++ sepToks q!"," (args.map (q!"mut" ++ ·)) ++ q!")"
    ++ (match ret with | some t => q!"->" ++ t | none => []) ++ q!"{" ++ (body ++ if ret.isNone then q!";" else []) ++ q!"}" = item at hf
  have hi : followedBy [.punct c!"#", .punct c!"["] item = none := by rw [← hy]; simp [followedBy]
  have hrl : ∀ a, readRules a item = none := by intro a; rw [← hy]; simp [readRules, followedBy]
  have hus : readUse item = none := by rw [← hy]; simp [readUse, followedBy]
  have e : (GenFn.fn name args ret body).toks = q!"# [" ++ q!"allow ( non_snake_case , unused_mut , unsafe_code )" ++ q!"]"
      ++ (q!"# [" ++ q!"inline ( always )" ++ q!"]" ++ item) := by
    rw [← hy]
    cases ret <;> simp [GenFn.toks]
  have hlen : ∃ n, (q!"# [" ++ q!"allow ( non_snake_case , unused_mut , unsafe_code )" ++ q!"]"
      ++ (q!"# [" ++ q!"inline ( always )" ++ q!"]" ++ item)).length = n + 1 + 1 := ⟨_, rfl⟩
  obtain ⟨n, hn⟩ := hlen
  have h1 : readItem (q!"# [" ++ q!"allow ( non_snake_case , unused_mut , unsafe_code )" ++ q!"]" ++ (q!"# [" ++ q!"inline ( always )" ++ q!"]" ++ item))
      = some (.fn [q!"allow ( non_snake_case , unused_mut , unsafe_code )", q!"inline ( always )"] name (args.map (q!"mut" ++ ·)) ret
        (body ++ if ret.isNone then q!";" else []), []) := by
    rw [readItem, hn, attr_read _ (by bal), attr_read _ (by bal), attr_none _ hi]
    dsimp only
    rw [hrl, hus, hf]
    rfl
  rw [e, itemsOf, hn, readItems]
  · rw [h1]
    simp only [Option.bind_eq_bind, Option.bind_some, readItems]
  · simp

/-! ## Parameters -/

theorem macroParams_bal : ∀ (as : List Str) (ts : List ArgTy), BalL (macroParams as ts)
  | [], _ => by simp only [macroParams]; exact balL_nil
  | _ :: _, [] => by simp only [macroParams]; exact balL_nil
  | a :: as, t :: ts => by
    simp only [macroParams]
    refine balL_cons (bal_ite (by bal) (by bal)) (macroParams_bal as ts)

/-- Reading the parameters of a macro. -/
theorem matcher_read : ∀ (as : List Str) (ts : List ArgTy), ts.length = as.length → c!"..." ∉ as.dropLast →
    ∃ ps, readMatcher (sepToks q!"," (macroParams as ts)) = some ps ∧ ps.map (·.1) = as
  | [], [], _, _ => ⟨[], by simp [macroParams, sepToks, readMatcher], rfl⟩
  | [a], [t], _, _ => by
    simp only [macroParams]
    by_cases h : a = c!"..."
    · rw [if_pos h]
      exact ⟨[(c!"...", c!"expr")], by simp [sepToks, readMatcher, followedBy], by rw [h]; rfl⟩
    · rw [if_neg h]
      exact ⟨[(a, t.fragment)], by simp [sepToks, readMatcher], rfl⟩
  | a :: b :: as, t :: u :: ts, hl, hd => by
    obtain ⟨ps, h, hp⟩ := matcher_read (b :: as) (u :: ts) (by simpa using hl) (fun hm => hd (by
      rw [List.dropLast_cons_cons]
      exact List.mem_cons_of_mem _ hm))
    have ha : a ≠ c!"..." := fun e => hd (by
      rw [List.dropLast_cons_cons, e]
      exact List.mem_cons_self)
    refine ⟨(a, t.fragment) :: ps, ?_, by rw [List.map_cons, hp]⟩
    rw [macroParams, if_neg ha]
    have hne : ∃ x xs, macroParams (b :: as) (u :: ts) = x :: xs := ⟨_, _, rfl⟩
    obtain ⟨x, xs, hx⟩ := hne
    rw [hx] at h ⊢
    have e : sepToks q!"," ((q!"$" ++ [.id a] ++ q!":" ++ [.id t.fragment]) :: x :: xs)
      = .punct c!"$" :: .id a :: .punct c!":" :: .id t.fragment :: .punct c!"," :: sepToks q!"," (x :: xs) := by simp [sepToks]
    rw [e, readMatcher]
    simp [h]

theorem fnParams_text {P : PCtx} (hP : c!"..." ∉ P.L.argNames) : ∀ (as : List Str) (ts : List ArgTy), ∀ a ∈ fnParams P as ts, Bal a ∧ TyText a
  | [], _, _, h => by simp [fnParams] at h
  | _ :: _, [], _, h => by simp [fnParams] at h
  | a :: as, .known t :: ts, x, h => by
    simp only [fnParams, List.mem_cons] at h
    rcases h with rfl | h
    · exact ⟨bal_app (by bal) (bal_ty P t), tyText_app (tyText_app (tyText_id a) (tyText_tok rfl rfl (by simp))) (tyText_ty hP t)⟩
    · exact fnParams_text hP as ts x h
  | a :: as, .unknown :: ts, x, h | a :: as, .ident :: ts, x, h | a :: as, .expr :: ts, x, h | a :: as, .ty :: ts, x, h | a :: as, .tt :: ts, x, h => by
    simp only [fnParams, List.mem_cons] at h
    rcases h with rfl | h
    · exact ⟨bal_bad, tyText_tok rfl rfl (by simp)⟩
    · exact fnParams_text hP as ts x h

theorem fnParams_names {P : PCtx} : ∀ (as : List Str) (ts : List ArgTy), ts.length = as.length → ts.all ArgTy.isKnown = true →
    ((fnParams P as ts).map (q!"mut" ++ ·)).map fnParamName = as.map some
  | [], [], _, _ => by simp [fnParams]
  | a :: as, .known t :: ts, hl, hk => by
    have := fnParams_names (P := P) as ts (by simpa using hl) (by simpa [ArgTy.isKnown] using hk)
    simp only [fnParams, List.map_cons, this]
    simp [fnParamName]
  | _ :: _, .unknown :: _, _, hk | _ :: _, .ident :: _, _, hk | _ :: _, .expr :: _, _, hk | _ :: _, .ty :: _, _, hk | _ :: _, .tt :: _, _, hk => by
    simp [ArgTy.isKnown] at hk

end

end CMacro
