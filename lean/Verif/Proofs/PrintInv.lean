import Verif.Proofs.OccursFinish
import Verif.Spec.Hygiene
import Verif.Props.Export

/-!
# Invariants of printed tokens

A property of token lists that holds of what single words and parameters are printed as, and of lists put together,
holds of everything that is printed.
-/

namespace CMacro
open Spec

/-- The names of a list of leaves. -/
def Words (N : Str → Prop) (ls : List Leaf) : Prop := ∀ x, Leaf.name x ∈ ls → N x

/-- A token that is neither a word nor `$`. -/
def RTok.plain : RTok → Prop
  | .id _ => False
  | .punct p => p ≠ c!"$"
  | _ => True

/-- Every `let` introduces one of the variables of the code generator. -/
def ownLets : List RTok → Bool
  | .id a :: ts => (decide (a ≠ c!"let") || (ts.head?.any fun t => [RTok.id c!"value", .id c!"prev", .id c!"_"].contains t)) && ownLets ts
  | _ :: ts => ownLets ts
  | [] => true

/-- Only words of the code generator, and no `$`. -/
def plainToks (ts : List RTok) : Bool := (ts.all fun
  | .id x => ownWords.contains x
  | .punct p => decide (p ≠ c!"$")
  | _ => true) && ownLets ts

/-- A property of token lists, given which names may be printed and which may be declared. -/
structure PrintInv (P : PCtx) (N : Str → Prop) (D : IdentExpr → Prop) (Q : List RTok → Prop) : Prop where
  nil : Q []
  app : ∀ {a b : List RTok}, Q a → Q b → Q (a ++ b)
  tok : ∀ {t : RTok}, t.plain → Q [t]
  word : ∀ {x : Str}, N x → Q [.id x]
  own : ∀ {x : Str}, x ∈ ownWords → x ≠ c!"let" → N x
  fixed : ∀ {ts : List RTok}, plainToks ts = true → Q ts
  decl : ∀ {n : IdentExpr} (isStatic : Bool), D n → Q (n.toks P) → Q ((if isStatic then q!"static mut" else q!"let mut") ++ n.toks P)
  ffi : ∀ p, P.C.ffiPrefix = some p → ∀ x ∈ p.segs, N x
  trait : ∀ p, P.C.traitPrefix = some p → ∀ x ∈ p.segs, N x
  types : ∀ id t, P.C.resolveTy id = some t → ∀ x ∈ rtyWords t, N x
  variants : ∀ id t e, P.C.resolveEnumVariant id = some (t, e) → Q e
  arg : ∀ i, Q (argToks P i)
  str : ∀ i : Nat, Q (.punct c!"$" :: match P.L.argNames[i]? with | some n => [.id n] | none => [.bad])

section
variable {P : PCtx} {N : Str → Prop} {D : IdentExpr → Prop} {Q : List RTok → Prop}

theorem words_app {a b : List Leaf} : Words N (a ++ b) ↔ Words N a ∧ Words N b :=
  ⟨fun h => ⟨fun x hx => h x (by simp [hx]), fun x hx => h x (by simp [hx])⟩,
    fun h x hx => (List.mem_append.1 hx).elim (h.1 x) (h.2 x)⟩

theorem words_flatMap {α : Type} {f : α → List Leaf} {xs : List α} (h : Words N (xs.flatMap f)) : ∀ a ∈ xs, Words N (f a) :=
  fun a ha x hx => h x (List.mem_flatMap.2 ⟨a, ha, hx⟩)

variable (I : PrintInv P N D Q)
include I

theorem pi_cons {t : RTok} {ts : List RTok} (h : Q [t]) (hs : Q ts) : Q (t :: ts) := I.app (a := [t]) h hs

theorem pi_fixed {ts : List RTok} (h : plainToks ts = true) : Q ts := I.fixed h

/-- Put token lists together. -/
macro "pinv" I:term : tactic => `(tactic| (repeat' (apply PrintInv.app $I)) <;> first
  | assumption
  | exact pi_fixed $I (by decide)
  | exact PrintInv.tok $I trivial
  | exact PrintInv.arg $I _)

theorem pi_sep {sep : List RTok} (hs : Q sep) : ∀ {xs : List (List RTok)}, (∀ x ∈ xs, Q x) → Q (sepToks sep xs)
  | [], _ => I.nil
  | [x], h => h x (by simp)
  | x :: y :: zs, h => by
    rw [sepToks.eq_def]
    exact I.app (I.app (h x (by simp)) hs) (pi_sep hs fun z hz => h z (List.mem_cons_of_mem _ hz))

theorem pi_flatten : ∀ {xs : List (List RTok)}, (∀ x ∈ xs, Q x) → Q xs.flatten
  | [], _ => I.nil
  | x :: xs, h => I.app (h x (by simp)) (pi_flatten fun y hy => h y (by simp [hy]))

theorem pi_comma : ∀ {xs : List (List RTok)}, (∀ x ∈ xs, Q x) → Q (commaToks xs)
  | [], _ => I.nil
  | x :: xs, h => I.app (I.app (h x (by simp)) (pi_fixed I (by decide))) (pi_comma fun y hy => h y (by simp [hy]))

theorem pi_ids {xs : List Str} (h : ∀ x ∈ xs, N x) : Q (sepToks q!"::" (xs.map fun s => [.id s])) := by
  refine pi_sep I (pi_fixed I (by decide)) fun x hx => ?_
  obtain ⟨s, hs, rfl⟩ := List.mem_map.1 hx
  exact I.word (h s hs)

theorem pi_colon (b : Bool) : Q (if b = true then q!"::" else []) := by
  split
  · exact pi_fixed I (by decide)
  · exact I.nil

theorem pi_path {p : RPath} (h : ∀ x ∈ p.segs, N x) : Q p.toks := I.app (pi_colon I _) (pi_ids I h)

theorem pi_prefix {p : Option RPath} (h : ∀ q, p = some q → ∀ x ∈ q.segs, N x) : Q (prefixToks p) := by
  cases p with
  | none => exact I.nil
  | some q => exact I.app (pi_path I (h q rfl)) (pi_fixed I (by decide))

theorem pi_ffi : Q (prefixToks P.C.ffiPrefix) := pi_prefix I I.ffi
theorem pi_trait : Q (prefixToks P.C.traitPrefix) := pi_prefix I I.trait

theorem pi_rty : ∀ {t : RTy}, (∀ x ∈ rtyWords t, N x) → Q t.toks
  | .ptr m t, h => by
    have h1 : Q (if m = true then q!"mut" else q!"const") := by split <;> exact pi_fixed I (by decide)
    have h2 := pi_rty (t := t) h
    rw [RTy.toks]
    pinv I
  | .unit, _ => pi_fixed I (by decide)
  | .verbatim s, _ => I.tok trivial
  | .path (.rich _ _) p, h => I.tok trivial
  | .path .plain p, h => pi_path I h
  | .other s, _ => I.tok trivial

theorem pi_prefixed {pre : Option RPath} {x : Str} (h : ∀ q, pre = some q → ∀ x ∈ q.segs, N x) (hx : x ∈ ownWords ∧ x ≠ c!"let") :
    Q (RTy.prefixed pre x).toks := by
  have hn := I.own hx.1 hx.2
  cases pre with
  | none => exact pi_rty I (by simpa [RTy.prefixed, rtyWords] using hn)
  | some p =>
    refine pi_rty I fun y hy => ?_
    simp only [RTy.prefixed, rtyWords, List.mem_append, List.mem_singleton] at hy
    rcases hy with hy | rfl
    · exact h p rfl y hy
    · exact hn

theorem pi_builtIn (b : BuiltInType) : Q (b.toRust P.C).toks := by
  have hn : ∀ q : RPath, none = some q → ∀ x ∈ q.segs, N x := by rintro q ⟨⟩
  cases b
  case sizeT =>
    unfold BuiltInType.toRust
    dsimp only
    split
    · rename_i h; exact pi_rty I (I.types _ _ h)
    · split
      · exact pi_prefixed I I.ffi (by decide)
      · exact pi_prefixed I hn (by decide)
  all_goals first
    | exact pi_prefixed I hn (by decide)
    | exact pi_prefixed I I.ffi (by decide)

theorem pi_cont {c : IdentCont} (h : Words N [contLeaf c]) : Q (c.toks P) := by
  cases c with
  | arg i => exact I.arg i
  | plain id => exact I.word (h id (by simp [contLeaf]))
  | int n => exact I.tok trivial

theorem pi_name {n : IdentExpr} (h : Words N (nameLeaves n)) : Q (n.toks P) := by
  cases n with
  | arg i => exact I.arg i
  | plain id => exact I.word (h id (by simp [nameLeaves]))
  | concat ids =>
    have h1 := pi_trait I
    have h2 : Q (sepToks q!"," (ids.map (·.toks P))) := pi_sep I (pi_fixed I (by decide)) fun x hx => by
      obtain ⟨c, hc, rfl⟩ := List.mem_map.1 hx
      exact pi_cont I fun y hy => h y (List.mem_map.2 ⟨c, hc, (List.mem_singleton.1 hy).symm⟩)
    rw [IdentExpr.toks]
    pinv I

theorem pi_ty : ∀ {t : Ty}, Words N (tyLeaves t) → Q (t.toks P)
  | .builtIn b, _ => pi_builtIn I b
  | .ident n _, h => pi_name I h
  | .path lc segs, h => I.app (pi_colon I _) (pi_ids I fun x hx => h x (List.mem_map.2 ⟨x, hx, rfl⟩))
  | .ptr t, h => I.app (pi_fixed I (by decide)) (pi_ty (t := t) h)
  | .qualified (.ptr t) q, h => by
    have h1 := pi_ty (t := t) h
    rw [Ty.toks]
    split <;> pinv I
  | .qualified (.builtIn b) _, h => pi_ty (t := .builtIn b) h
  | .qualified (.ident b c) _, h => pi_ty (t := .ident b c) h
  | .qualified (.path b c) _, h => pi_ty (t := .path b c) h
  | .qualified (.qualified b c) _, h => pi_ty (t := .qualified b c) h

omit I in
theorem words_fromRust {ffi : Option RPath} : ∀ {r : RTy} {t : Ty}, (∀ x ∈ rtyWords r, N x) → Ty.fromRust ffi r = .ok t → Words N (tyLeaves t)
  | .ptr m r, t, h, ht => by
    rw [Ty.fromRust] at ht
    split at ht
    · rename_i t' ht'
      have := words_fromRust (r := r) h ht'
      cases ht
      cases m <;> simpa [tyLeaves] using this
    · cases ht
  | .unit, t, _, ht => by cases ht; rintro x ⟨⟩
  | .verbatim s, t, h, ht => by
    cases ht
    intro x hx
    simp only [tyLeaves, nameLeaves, List.mem_singleton, Leaf.name.injEq] at hx
    exact h x (by simp [rtyWords, hx])
  | .path q p, t, h, ht => by
    rw [Ty.fromRust] at ht
    have hm : ∀ {ss : List Str}, ss = p.segs → Words N (ss.map .name) := by
      rintro _ rfl x hx
      obtain ⟨y, hy, hxy⟩ := List.mem_map.1 hx
      cases hxy
      exact h x hy
    split at ht
    · cases ht; rintro x ⟨⟩
    · split at ht
      · rename_i s _ hs
        cases ht
        exact hm (ss := [s]) hs.symm
      · cases ht; exact hm rfl
  | .other s, t, _, ht => by cases ht

theorem pi_wchar : Q (wcharToks P) := by
  unfold wcharToks
  split
  · rename_i r h
    split
    · rename_i t ht
      exact pi_ty I (words_fromRust (I.types _ _ h) ht)
    · exact I.tok trivial
  · exact pi_fixed I (by decide)

theorem pi_file : Q (fileToks P) := I.app (pi_trait I) (pi_fixed I (by decide))

theorem pi_static {L : Loc} {ts : List RTok} (h : Q ts) : Q (staticRef L ts) := by
  unfold staticRef
  split <;> pinv I

theorem pi_charPtr {ts : List RTok} (h : Q ts) : Q (charPtrToks P ts) := by
  have h1 := pi_ffi I
  have h2 : Q (staticRef P.L q!"[ u8 ]") := pi_static I (pi_fixed I (by decide))
  unfold charPtrToks
  pinv I

theorem pi_array {xs : List (List RTok)} (h : ∀ x ∈ xs, Q x) : Q (arrayToks xs) := by
  have := pi_sep I (pi_fixed I (ts := q!",") (by decide)) h
  unfold arrayToks
  pinv I

theorem pi_arrayTy {ty : List RTok} {n : Nat} (h : Q ty) : Q (arrayTy ty n) := by
  unfold arrayTy
  pinv I

theorem pi_constPtr {x : Str} {ty val : List RTok} (hx : x ∈ ownWords ∧ x ≠ c!"let") (h : Q ty) (h' : Q val) : Q (constPtrToks x ty val) := by
  have := I.word (I.own hx.1 hx.2)
  unfold constPtrToks
  pinv I

theorem pi_string (s : LitString) : Q (s.toks P false).2 := by
  cases s with
  | ordinary bs =>
    have h1 := pi_ffi I
    have h2 : Q (staticRef P.L (q!"[ u8 ;" ++ [.int ↑(bs ++ [0]).length []] ++ q!"]")) := pi_static I (by pinv I)
    simp only [LitString.toks, Bool.false_eq_true, if_false]
    pinv I
  | utf8 s =>
    simp only [LitString.toks, Bool.false_eq_true, if_false]
    exact pi_constPtr I (by decide) (pi_arrayTy I (pi_fixed I (by decide))) (I.tok trivial)
  | utf16 s =>
    simp only [LitString.toks, Bool.false_eq_true, if_false]
    refine pi_constPtr I (by decide) (pi_arrayTy I (pi_fixed I (by decide))) (pi_array I fun x hx => ?_)
    obtain ⟨n, _, rfl⟩ := List.mem_map.1 hx
    exact I.tok trivial
  | utf32 s =>
    simp only [LitString.toks, Bool.false_eq_true, if_false]
    refine pi_constPtr I (by decide) (pi_arrayTy I (pi_fixed I (by decide))) (pi_array I fun x hx => ?_)
    obtain ⟨n, _, rfl⟩ := List.mem_map.1 hx
    exact I.tok trivial
  | wide ws =>
    have h1 := pi_wchar I
    simp only [LitString.toks, Bool.false_eq_true, if_false]
    refine pi_constPtr I (by decide) (pi_arrayTy I h1) (pi_array I fun x hx => ?_)
    obtain ⟨n, _, rfl⟩ := List.mem_map.1 hx
    pinv I

theorem pi_lit (l : Lit) : Q (l.toks P) := by
  cases l with
  | string s => exact pi_string I s
  | char c => cases c <;> (simp only [Lit.toks, LitChar.toks]; split <;> exact I.tok trivial)
  | _ => exact I.tok trivial

theorem pi_var {n : IdentExpr} (h : Words N (nameLeaves n)) : Q (varToks P n) := by
  have h1 := pi_ffi I
  have h2 := pi_trait I
  have h3 := pi_file I
  unfold varToks
  split
  · rename_i id
    split
    · pinv I
    · split
      · exact pi_charPtr I (by pinv I)
      · split
        · rename_i t ht
          have ho : t ∈ ownWords ∧ t ≠ c!"let" := by
            unfold limitName at ht
            repeat' (split at ht; · cases ht; decide)
            cases ht
          have : Q [.id t] := I.word (I.own ho.1 ho.2)
          pinv I
        · split
          · rename_i t e he
            exact I.variants _ _ _ he
          · exact pi_name I h
  · exact pi_name I h

theorem pi_stringify (n : IdentExpr) : Q (stringifyInner P n) := by
  have h2 := pi_trait I
  have h3 := pi_file I
  unfold stringifyInner
  cases n with
  | arg i =>
    have h4 := I.str i
    have h5 : Q q!"stringify ! (" := pi_fixed I (by decide)
    have h6 := I.app (I.app (I.app h2 h5) h4) (pi_fixed I (ts := q!")") (by decide))
    cases hi : P.L.argNames[i]? <;> simpa [hi] using h6
  | plain id =>
    dsimp only
    split
    · pinv I
    · split <;> pinv I
  | concat ids => dsimp only; pinv I

theorem pi_parenIf {b : Bool} {x : List RTok} (h : Q x) : Q (parenIf b x) := by
  unfold parenIf parenToks
  split
  · pinv I
  · exact h

theorem pi_read {x : List RTok} (h : Q x) : Q (readVolatile P x) := by
  have := pi_trait I
  unfold readVolatile
  pinv I

theorem pi_volatile {p v x : List RTok} (hp : Q p) (hv : Q v) (hx : Q x) : Q (volatileBlock P p v x) := by
  have := pi_trait I
  unfold volatileBlock
  pinv I

theorem pi_kid0 {ks : List (List RTok)} (h : ∀ k ∈ ks, Q k) : Q (kid0 ks) := by
  unfold kid0
  split
  · exact h _ (by simp)
  · exact I.nil

theorem pi_kid1 {ks : List (List RTok)} (h : ∀ k ∈ ks, Q k) : Q (kid1 ks) := by
  unfold kid1
  split
  · exact h _ (by simp)
  · exact I.nil

theorem pi_step {m : Str} {x : List RTok} (hm : m ∈ ownWords ∧ m ≠ c!"let") (h : Q x) : Q (derefStep m x) := by
  have := I.word (I.own hm.1 hm.2)
  unfold derefStep
  pinv I

theorem pi_deref {x : Expr} {raw : List RTok} {ks : List (List RTok)} (h : Q raw) (hk : ∀ k ∈ ks, Q k) : Q (derefToks P x raw ks) := by
  have h0 := pi_kid0 I hk
  have h1 := pi_kid1 I hk
  have ha := pi_step I (m := c!"add") (by decide) h0
  have hs := pi_step I (m := c!"sub") (by decide) h0
  have hp : ∀ b, Q (parenIf b raw) := fun b => pi_parenIf I h
  have hp0 : ∀ b, Q (parenIf b (kid0 ks)) := fun b => pi_parenIf I h0
  have hplain : Q (q!"*" ++ parenIf (decide (x.prec > 2)) raw) := by have := hp (decide (x.prec > 2)); pinv I
  unfold derefToks
  dsimp only
  split
  · split
    · exact pi_read I h
    · exact hplain
  · rename_i l _; have := hp0 (decide (l.prec > 1)); pinv I
  · rename_i l _; have := hp0 (decide (l.prec > 1)); pinv I
  · pinv I
  · pinv I
  · pinv I
  · pinv I
  · exact hplain

theorem pi_unary {op : UnOp} {x : Expr} {raw : List RTok} {ks : List (List RTok)} (h : Q raw) (hk : ∀ k ∈ ks, Q k) :
    Q (unaryToks P op x raw ks) := by
  have h0 := pi_kid0 I hk
  have hr := pi_read I h0
  have ht := pi_trait I
  have hp : Q (parenIf (decide (x.prec > op.prec)) raw) := pi_parenIf I h
  have hv : Q q!"value" := pi_fixed I (by decide)
  cases op <;> unfold unaryToks <;> dsimp only
  case deref => exact pi_deref I h hk
  case inc =>
    split
    · exact pi_volatile I h0 (by pinv I) hv
    · pinv I
  case dec =>
    split
    · exact pi_volatile I h0 (by pinv I) hv
    · pinv I
  case postInc =>
    split
    · exact pi_volatile I h0 hr (by pinv I)
    · pinv I
  case postDec =>
    split
    · exact pi_volatile I h0 hr (by pinv I)
    · pinv I
  all_goals pinv I

theorem pi_binary {op : BinOp} {l r : Expr} {lt rt : List RTok} {ks : List (List RTok)} (hl : Q lt) (hr : Q rt) (hk : ∀ k ∈ ks, Q k) :
    Q (binaryToks P l op r lt rt ks) := by
  have h0 := pi_kid0 I hk
  have hread := pi_trait I
  have ht : Q [.punct op.text] := I.tok (by cases op <;> (show _ ≠ _; decide))
  unfold binaryToks
  split
  · split
    · refine pi_volatile I h0 ?_ (pi_fixed I (by decide))
      split
      · exact hr
      · pinv I
    · pinv I
  · exact I.app (I.app (pi_parenIf I hl) ht) (pi_parenIf I hr)

theorem pi_castLit (v : Int) : Q (castLit v) := by
  unfold castLit
  repeat' (split; · exact I.tok trivial)
  exact I.tok trivial

theorem pi_cast {ty : Ty} {x : Expr} {raw : List RTok} (ht : Words N (tyLeaves ty)) (h : Q raw) : Q (castToks P ty x raw) := by
  have h1 := pi_trait I
  have h2 := pi_ty I ht
  have h3 : Q (castOperand x raw) := by
    unfold castOperand
    split
    · exact pi_castLit I _
    · exact pi_parenIf I h
  unfold castToks
  split
  · pinv I
  · split
    · pinv I
    · split <;> pinv I

theorem pi_callArg {into : Bool} {a : Expr} {raw : List RTok} (h : Q raw) : Q (callArgToks P into a raw) := by
  unfold callArgToks
  refine I.app ?_ ?_
  · unfold argNameToks
    split
    · split
      · exact I.tok trivial
      · exact I.nil
    · exact I.nil
  · split
    · exact h
    · split
      · unfold parenToks; pinv I
      · exact h

omit I in
theorem zip_all {α β γ : Type} {f : α → β → γ} {R : γ → Prop} {T : β → Prop} (hf : ∀ a b, T b → R (f a b)) :
    ∀ {as : List α} {bs : List β}, (∀ b ∈ bs, T b) → ∀ c ∈ List.zipWith f as bs, R c
  | [], _, _, c, hc => by simp at hc
  | _ :: _, [], _, c, hc => by simp at hc
  | a :: as, b :: bs, h, c, hc => by
    rw [List.zipWith_cons_cons] at hc
    rcases List.mem_cons.1 hc with rfl | hc
    · exact hf a b (h b (by simp))
    · exact zip_all hf (fun b hb => h b (List.mem_cons_of_mem _ hb)) c hc

theorem pi_call {n : IdentExpr} {as : List Expr} {raw : List (List RTok)} (hn : Words N (nameLeaves n)) (h : ∀ k ∈ raw, Q k) :
    Q (callToks P n as raw) := by
  have h1 := pi_trait I
  have h2 := pi_name I hn
  have h3 : Q (sepToks q!"," (List.zipWith (callArgToks P (!isOffsetof n as)) as raw)) :=
    pi_sep I (pi_fixed I (by decide)) (zip_all (T := Q) (fun a b hb => pi_callArg I (a := a) (raw := b) hb) h)
  have h4 : Q (if isOffsetof n as = true then prefixToks P.C.traitPrefix ++ q!"mem :: offsetof !" else n.toks P) := by
    split <;> pinv I
  unfold callToks
  dsimp only
  pinv I

theorem pi_part {e : Expr} {raw : List RTok} (h : Q raw) : Q (concatPartToks P e raw) := by
  unfold concatPartToks
  split
  · split
    · exact pi_file I
    · exact h
  · exact pi_stringify I _
  · exact h

mutual

theorem pi_expr : ∀ {e : Expr}, Words N (exprLeaves e) → Q (e.toks P)
  | .var n, h => by rw [Expr.toks]; exact pi_var I h
  | .call n as, h => by
    rw [exprLeaves, words_app] at h
    rw [Expr.toks]
    exact pi_call I h.1 (pi_exprs h.2)
  | .cast ty x, h => by
    rw [exprLeaves, words_app] at h
    rw [Expr.toks]
    exact pi_cast I h.1 (pi_expr h.2)
  | .lit l, _ => by rw [Expr.toks]; exact pi_lit I l
  | .stringify n, h => by
    have h1 := pi_trait I
    have h2 := pi_stringify I n
    rw [Expr.toks]
    exact pi_charPtr I (by pinv I)
  | .concatStr parts, h => by
    rw [exprLeaves] at h
    have h1 := pi_trait I
    have h2 : Q (sepToks q!"," (List.zipWith (concatPartToks P) parts (Expr.toksL P parts))) :=
      pi_sep I (pi_fixed I (by decide)) (zip_all (T := Q) (fun a b hb => pi_part I (e := a) (raw := b) hb) (pi_exprs h))
    rw [Expr.toks]
    exact pi_charPtr I (by pinv I)
  | .sizeOf ty, h => by
    rw [exprLeaves] at h
    have h1 := pi_trait I
    have h2 := pi_ty I h
    have h3 := pi_builtIn I .sizeT
    rw [Expr.toks]
    pinv I
  | .un op x, h => by
    rw [exprLeaves] at h
    rw [Expr.toks]
    exact pi_unary I (pi_expr h) (pi_kids h)
  | .bin l op r, h => by
    rw [exprLeaves, words_app] at h
    rw [Expr.toks]
    exact pi_binary I (pi_expr h.1) (pi_expr h.2) (pi_kids h.1)
  | .ternary c t f, h => by
    rw [exprLeaves, words_app, words_app] at h
    have h1 := pi_expr h.1
    have h2 := pi_expr h.2.1
    have h3 := pi_expr h.2.2
    rw [Expr.toks]
    pinv I

theorem pi_exprs : ∀ {es : List Expr}, Words N (exprsLeaves es) → ∀ k ∈ Expr.toksL P es, Q k
  | [], _, k, hk => by rw [Expr.toksL] at hk; cases hk
  | e :: es, h, k, hk => by
    rw [exprsLeaves, words_app] at h
    rw [Expr.toksL] at hk
    rcases List.mem_cons.1 hk with rfl | hk
    · exact pi_expr h.1
    · exact pi_exprs h.2 k hk

theorem pi_kids : ∀ {e : Expr}, Words N (exprLeaves e) → ∀ k ∈ Expr.kids P e, Q k
  | .un _ x, h, k, hk => by
    rw [exprLeaves] at h
    rw [Expr.kids, List.mem_singleton] at hk
    subst hk
    exact pi_expr (e := x) h
  | .bin l _ r, h, k, hk => by
    rw [exprLeaves, words_app] at h
    rw [Expr.kids, List.mem_cons, List.mem_singleton] at hk
    rcases hk with rfl | rfl
    · exact pi_expr (e := l) h.1
    · exact pi_expr (e := r) h.2
  | .var _, _, k, hk => by simp [Expr.kids] at hk
  | .call _ _, _, k, hk => by simp [Expr.kids] at hk
  | .cast _ _, _, k, hk => by simp [Expr.kids] at hk
  | .lit _, _, k, hk => by simp [Expr.kids] at hk
  | .stringify _, _, k, hk => by simp [Expr.kids] at hk
  | .concatStr _, _, k, hk => by simp [Expr.kids] at hk
  | .sizeOf _, _, k, hk => by simp [Expr.kids] at hk
  | .ternary _ _ _, _, k, hk => by simp [Expr.kids] at hk

end

theorem pi_asm {a : Asm} (h : Words N (asmLeaves a)) : Q (a.toks P) := by
  rw [asmLeaves, words_app] at h
  have ho := words_flatMap h.1
  have hi := words_flatMap h.2
  have hd : ∀ d : Dir, Q d.toks := fun d => pi_fixed I (by cases d <;> decide)
  have hr : ∀ r : RegConstraint, Q r.toks := fun r => by
    cases r with
    | digit n => exact I.tok trivial
    | _ => exact pi_fixed I (by decide)
  unfold Asm.toks
  split
  · exact I.tok trivial
  · rename_i outs ins hm
    obtain ⟨ho, hi⟩ := matchConstraints_all (p := fun e => Q (e.toks P)) _ _ _ hm (fun x hx => pi_expr I (ho x hx)) fun x hx => pi_expr I (hi x hx)
    dsimp only
    generalize hclob : (if a.isGlobal = true then _ else List.filter _ _ : List Str) = clob
    generalize hopts : ((if a.isAtt = true then _ else _) ++ _ : List (List RTok)) = opts
    have hopt : ∀ x ∈ opts, Q x := by
      intro x hx
      have : x ∈ [q!"att_syntax", q!"nomem", q!"preserves_flags"] := by
        rw [← hopts] at hx
        simp only [List.mem_append] at hx
        rcases hx with hx | hx
        · split at hx <;> simp_all
        · split at hx
          · simp at hx
          · simp only [List.mem_append] at hx
            rcases hx with hx | hx <;> split at hx <;> simp_all
      exact pi_fixed I ((by decide : ∀ x ∈ [q!"att_syntax", q!"nomem", q!"preserves_flags"], plainToks x = true) x this)
    have h1 := pi_trait I
    have h2 : Q (if a.isGlobal = true then q!"global_asm !" else q!"asm !") := by split <;> exact pi_fixed I (by decide)
    have h3 : Q (commaToks (a.template.map fun t => [.str t])) := pi_comma I fun x hx => by
      obtain ⟨t, _, rfl⟩ := List.mem_map.1 hx
      exact I.tok trivial
    have h4 : Q (commaToks (outs.map fun (d, r, e) => d.toks ++ q!"(" ++ r.toks ++ q!")" ++ e.toks P)) := pi_comma I fun x hx => by
      obtain ⟨⟨d, r, e⟩, hm, rfl⟩ := List.mem_map.1 hx
      have h1 := hd d
      have h2 := hr r
      have h3 : Q (e.toks P) := ho _ hm
      dsimp only
      pinv I
    have h5 : Q (commaToks (ins.map fun (r, e) => q!"in (" ++ r.toks ++ q!")" ++ e.toks P)) := pi_comma I fun x hx => by
      obtain ⟨⟨r, e⟩, hm, rfl⟩ := List.mem_map.1 hx
      have h2 := hr r
      have h3 : Q (e.toks P) := hi _ hm
      dsimp only
      pinv I
    have h6 : Q (commaToks (clob.map fun c => q!"out (" ++ [.str c] ++ q!") _")) := pi_comma I fun x hx => by
      obtain ⟨t, _, rfl⟩ := List.mem_map.1 hx
      pinv I
    have h7 : Q (if (a.isGlobal || clob.isEmpty) = true then [] else q!"clobber_abi (" ++ [.str c!"C"] ++ q!") ,") := by
      split
      · exact I.nil
      · pinv I
    have h8 : Q (if opts.isEmpty = true then [] else q!"options (" ++ sepToks q!"," opts ++ q!") ,") := by
      have := pi_sep I (pi_fixed I (ts := q!",") (by decide)) hopt
      split
      · exact I.nil
      · pinv I
    pinv I

theorem pi_fnDecl {d : FunctionDecl} (h : Words N (stmtLeaves (.fnDecl d))) : Q (d.toks P) := by
  rw [stmtLeaves, words_app, words_app] at h
  have h1 := pi_ty I h.1
  have h2 := pi_name I h.2.1
  have h3 : Q (sepToks q!"," (d.args.map fun (t, n) => n.toks P ++ q!":" ++ t.toks P)) :=
    pi_sep I (pi_fixed I (by decide)) fun x hx => by
      obtain ⟨⟨t, n⟩, ha, rfl⟩ := List.mem_map.1 hx
      have hw := words_app.1 (words_flatMap h.2.2 _ ha)
      have h1 := pi_ty I hw.1
      have h2 := pi_name I hw.2
      dsimp only
      pinv I
  unfold FunctionDecl.toks
  pinv I

theorem pi_varDecl {d : VarDecl} (h : Words N (stmtLeaves (.varDecl d))) (hd : D d.name) : Q (d.toks P) := by
  rw [stmtLeaves, words_app, words_app] at h
  have h1 := pi_ty I h.1
  have h2 := pi_name I h.2.1
  have h3 := pi_expr I h.2.2
  have h4 := I.decl d.isStatic hd h2
  unfold VarDecl.toks
  exact I.app (I.app (I.app (I.app h4 (pi_fixed I (by decide))) h1) (pi_fixed I (by decide))) h3

mutual

theorem pi_stmt : ∀ {s : Stmt}, Words N (stmtLeaves s) → (∀ n ∈ declared s, D n) → Q (s.toks P)
  | .asm a, h, _ => by rw [Stmt.toks]; exact I.app (pi_asm I (by rwa [stmtLeaves] at h)) (pi_fixed I (by decide))
  | .expr e, h, _ => by rw [Stmt.toks]; exact I.app (pi_expr I (by rwa [stmtLeaves] at h)) (pi_fixed I (by decide))
  | .fnDecl d, h, _ => by rw [Stmt.toks]; exact pi_fnDecl I h
  | .varDecl d, h, hd => by rw [Stmt.toks]; exact I.app (pi_varDecl I h (hd _ (by simp [declared]))) (pi_fixed I (by decide))
  | .block ss, h, hd => by
    rw [stmtLeaves] at h
    have h1 := pi_flatten I (pi_stmts h (by rwa [declared] at hd))
    rw [Stmt.toks]
    pinv I
  | .ite c t f, h, hd => by
    rw [stmtLeaves, words_app, words_app] at h
    have h1 := pi_expr I h.1
    have h2 := pi_flatten I (pi_stmts h.2.1 fun n hn => hd n (by simp [declared, hn]))
    have h3 : Q (sepToks q!";" (Stmt.toksL P f)) := pi_sep I (pi_fixed I (by decide)) (pi_stmts h.2.2 fun n hn => hd n (by simp [declared, hn]))
    rw [Stmt.toks.eq_def]
    dsimp only
    refine I.app (by pinv I) ?_
    split
    · exact I.nil
    · pinv I
  | .doWhile b c, h, hd => by
    rw [stmtLeaves, words_app] at h
    have h1 := pi_expr I h.2
    have h2 := pi_flatten I (pi_stmts h.1 (by rwa [declared] at hd))
    rw [Stmt.toks]
    pinv I

theorem pi_stmts : ∀ {ss : List Stmt}, Words N (stmtsLeaves ss) → (∀ n ∈ declaredL ss, D n) → ∀ k ∈ Stmt.toksL P ss, Q k
  | [], _, _, k, hk => by rw [Stmt.toksL] at hk; cases hk
  | s :: ss, h, hd, k, hk => by
    rw [stmtsLeaves, words_app] at h
    rw [Stmt.toksL] at hk
    rcases List.mem_cons.1 hk with rfl | hk
    · exact pi_stmt h.1 fun n hn => hd n (by simp [declaredL, hn])
    · exact pi_stmts h.2 (fun n hn => hd n (by simp [declaredL, hn])) k hk

end

theorem pi_body {b : MacroBody} (h : Words N (bodyLeaves b)) (hd : ∀ n ∈ bodyDeclared b, D n) : Q (b.toks P) := by
  cases b with
  | expr e => exact pi_expr I h
  | stmt s => exact pi_stmt I h hd

end

end CMacro
