import Verif.Proofs.CommentsParse
import Verif.Props.Grammar

/-!
# C82: comments make no difference
-/

namespace CMacro
open Parser Spec

/-! ## The grammars agree -/

theorem uncomment_append (ts us : List MacroToken) : uncomment (ts ++ us) = uncomment ts ++ uncomment us := List.filter_append ..

theorem uncomment_comments {cs : List MacroToken} (h : Comments cs) : uncomment cs = [] := by
  simp only [uncomment, List.filter_eq_nil_iff]
  intro t ht
  simp [h t ht]

theorem uncomment_cons {t : MacroToken} (h : isRemark t = false) (ts : List MacroToken) : uncomment (t :: ts) = t :: uncomment ts := by
  simp [uncomment, h]

theorem Spec.Name.plain {t : MacroToken} {n : IdentExpr} (h : Name t n) : isRemark t = false := by cases h <;> rfl

theorem Spec.TypeName.plain {ts : List MacroToken} {t : Ty} (h : TypeName ts t) : uncomment ts = ts := by
  induction h with
  | @int ws =>
    simp only [uncomment, List.filter_eq_self]
    intro t ht
    obtain ⟨w, _, rfl⟩ := List.mem_map.1 ht
    rfl
  | ptr _ ih => rw [uncomment_append, ih]; rfl
  | _ => rfl

theorem Spec.GramC.some {ℓ : Nat} {ts : List MacroToken} {e : Expr} (h : GramC ℓ ts e) : 1 ≤ (uncomment ts).length := by
  obtain ⟨_, t, u, rfl, ht⟩ := Commented.gram_start h
  rw [uncomment_cons ht]
  simp

theorem Spec.GramC.single {ℓ : Nat} {ts : List MacroToken} {e : Expr} : GramC ℓ ts e → (∃ t, ts = [t]) ∨ 2 ≤ (uncomment ts).length
  | .name h => .inl ⟨_, rfl⟩
  | .lit => .inl ⟨_, rfl⟩
  | .paren hc h hd hb => .inr (by
      have := h.some
      simp only [uncomment_cons (show isRemark (.punct c!"(") = false from rfl), uncomment_append, List.length_cons, List.length_append]
      omega)
  | .sizeOf _ _ _ => .inr (by
      simp only [uncomment_cons (show isRemark (.punct c!"(") = false from rfl), uncomment_cons (show isRemark (.ident c!"sizeof") = false from rfl),
        List.length_cons]
      omega)
  | .call h _ _ _ _ => .inr (by
      simp only [uncomment_cons h.plain, uncomment_append, uncomment_cons (show isRemark (.punct c!"(") = false from rfl), List.length_cons,
        List.length_append]
      omega)
  | .index h _ _ _ _ => .inr (by
      have := h.some
      simp only [uncomment_append, uncomment_cons (show isRemark (.punct c!"[") = false from rfl), List.length_cons, List.length_append]
      omega)
  | .member h _ _ _ => .inr (by
      have := h.some
      simp only [uncomment_append, uncomment_cons (show isRemark (.punct c!".") = false from rfl), List.length_cons, List.length_append]
      omega)
  | .arrow h _ _ _ => .inr (by
      have := h.some
      simp only [uncomment_append, uncomment_cons (show isRemark (.punct c!"->") = false from rfl), List.length_cons, List.length_append]
      omega)
  | .postInc h _ => .inr (by
      have := h.some
      simp only [uncomment_append, uncomment_cons (show isRemark (.punct c!"++") = false from rfl), List.length_cons, List.length_append]
      omega)
  | .postDec h _ => .inr (by
      have := h.some
      simp only [uncomment_append, uncomment_cons (show isRemark (.punct c!"--") = false from rfl), List.length_cons, List.length_append]
      omega)
  | .pre (p := p) _ _ h => .inr (by
      have := h.some
      simp only [uncomment_append, uncomment_cons (show isRemark (.punct p) = false from rfl), List.length_cons, List.length_append]
      omega)
  | .cast _ _ _ h => .inr (by
      have := h.some
      simp only [uncomment_append, uncomment_cons (show isRemark (.punct c!"(") = false from rfl),
        uncomment_cons (show isRemark (.punct c!")") = false from rfl), List.length_cons, List.length_append]
      omega)
  | .bin (p := p) _ h _ _ _ => .inr (by
      have := h.some
      simp only [uncomment_append, uncomment_cons (show isRemark (.punct p) = false from rfl), List.length_cons, List.length_append]
      omega)
  | .cond h _ _ _ _ _ _ => .inr (by
      have := h.some
      simp only [uncomment_append, uncomment_cons (show isRemark (.punct c!"?") = false from rfl), List.length_cons, List.length_append]
      omega)
  | .assign (p := p) _ h _ _ _ => .inr (by
      have := h.some
      simp only [uncomment_append, uncomment_cons (show isRemark (.punct p) = false from rfl), List.length_cons, List.length_append]
      omega)
  | .up h _ => h.single

mutual

/-- Without its comments, the expression is one of the grammar of property C35. -/
theorem Spec.GramC.gram {ℓ : Nat} {ts : List MacroToken} {e : Expr} : GramC ℓ ts e → Gram ℓ (uncomment ts) e
  | .name h => by rw [uncomment_cons h.plain]; exact .name h
  | .lit => .lit
  | .paren hc h hd hb => by
    rw [uncomment_cons rfl, uncomment_append, uncomment_append, uncomment_append, uncomment_comments hc, uncomment_comments hd]
    refine .paren h.gram fun t n hn heq => ?_
    rcases h.single with ⟨t', rfl⟩ | h2
    · cases hr : isRemark t' with
      | true => simp [uncomment, hr] at heq
      | false =>
        rw [uncomment_cons hr] at heq
        cases heq
        exact hb _ _ hn rfl
    · rw [heq] at h2
      simp at h2
  | .sizeOf hc h hd => by
    rw [uncomment_cons rfl, uncomment_cons rfl, uncomment_append, uncomment_append, uncomment_append, uncomment_comments hc,
      uncomment_comments hd, h.plain]
    exact .sizeOf h
  | .call h hb hc ha hd => by
    rw [uncomment_cons h.plain, uncomment_append, uncomment_cons rfl, uncomment_append, uncomment_append, uncomment_append,
      uncomment_comments hb, uncomment_comments hc, uncomment_comments hd]
    exact .call h ha.args
  | .index h hb hc hi hd => by
    rw [uncomment_append, uncomment_append, uncomment_cons rfl, uncomment_append, uncomment_append, uncomment_append,
      uncomment_comments hb, uncomment_comments hc, uncomment_comments hd]
    exact .index h.gram hi.gram
  | .member h hb hc hn => by
    rw [uncomment_append, uncomment_append, uncomment_cons rfl, uncomment_append, uncomment_comments hb, uncomment_comments hc,
      uncomment_cons hn.plain]
    exact .member h.gram hn
  | .arrow h hb hc hn => by
    rw [uncomment_append, uncomment_append, uncomment_cons rfl, uncomment_append, uncomment_comments hb, uncomment_comments hc,
      uncomment_cons hn.plain]
    exact .arrow h.gram hn
  | .postInc h hb => by
    rw [uncomment_append, uncomment_append, uncomment_comments hb]
    exact .postInc h.gram
  | .postDec h hb => by
    rw [uncomment_append, uncomment_append, uncomment_comments hb]
    exact .postDec h.gram
  | .pre hp hc h => by
    rw [uncomment_cons rfl, uncomment_append, uncomment_comments hc]
    exact .pre hp h.gram
  | .cast hc ht hd h => by
    rw [uncomment_cons rfl, uncomment_append, uncomment_append, uncomment_append, uncomment_cons rfl, uncomment_comments hc,
      uncomment_comments hd, ht.plain]
    exact .cast ht h.gram
  | .bin hp h hb hc h' => by
    rw [uncomment_append, uncomment_append, uncomment_cons rfl, uncomment_append, uncomment_comments hb, uncomment_comments hc]
    exact .bin hp h.gram h'.gram
  | .cond h hb₁ hc₁ h' hb₂ hc₂ h'' => by
    rw [uncomment_append, uncomment_append, uncomment_cons rfl, uncomment_append, uncomment_append, uncomment_append, uncomment_cons rfl,
      uncomment_append, uncomment_comments hb₁, uncomment_comments hc₁, uncomment_comments hb₂, uncomment_comments hc₂]
    exact .cond h.gram h'.gram h''.gram
  | .assign hp h hb hc h' => by
    rw [uncomment_append, uncomment_append, uncomment_cons rfl, uncomment_append, uncomment_comments hb, uncomment_comments hc]
    exact .assign hp h.gram h'.gram
  | .up h hl => .up h.gram hl

theorem Spec.ArgsC.args {ts : List MacroToken} {es : List Expr} : ArgsC ts es → Args (uncomment ts) es
  | .none => .none
  | .one h => .one h.gram
  | .more h hb hc h' => by
    rw [uncomment_append, uncomment_append, uncomment_cons rfl, uncomment_append, uncomment_comments hb, uncomment_comments hc]
    exact .more h.gram h'.args

end

theorem Spec.GramC.body (E : Env) {cs ts : List MacroToken} {e : Expr} (hc : Comments cs) (h : GramC 12 ts e) :
    MacroBody.parse E (cs ++ ts) = .some (.expr e, []) := by
  have hs := Commented.gram_start h
  have hm : «meta» (cs ++ ts) = .some (Commented.texts cs, ts) := by
    have := hs.noComment []
    rw [List.append_nil] at this
    exact Commented.meta_eat hc this
  have hr := Commented.gram_reads E h [] (.of (.inl rfl))
  rw [List.append_nil] at hr
  unfold MacroBody.parse
  rw [hm]
  cases ts with
  | nil => obtain ⟨_, t, u, hs, _⟩ := hs; cases hs
  | cons t ts => simp only [Parser.or, allConsuming, map, hr]

/-! ## Parameter lists -/

/-- The tokens after the comments in front. -/
def afterComments (ts : List MacroToken) : List MacroToken := ts.dropWhile isRemark

theorem meta_drop : ∀ ts : List MacroToken, ∃ c, «meta» ts = some (c, afterComments ts)
  | [] => ⟨[], rfl⟩
  | t :: ts => by
    cases h : isRemark t with
    | false =>
      refine ⟨[], ?_⟩
      rw [meta_none (by rintro s r h'; cases h'; cases h)]
      simp [afterComments, h]
    | true =>
      obtain ⟨s, rfl⟩ := Commented.isRemark_inv h
      obtain ⟨c, hc⟩ := meta_drop ts
      refine ⟨s :: c, ?_⟩
      unfold «meta» at hc ⊢
      rw [many0_eq Commented.shrinks_comment]
      have : comment (.comment s :: ts) = some (s, ts) := rfl
      rw [this]
      dsimp only
      rw [if_neg (by simp), hc]
      rfl

/-- The parameters, read token by token. -/
def params : List MacroToken → Option (List Str)
  | [] => some []
  | .comment _ :: ts => params ts
  | .ident x :: ts => (params ts).map (x :: ·)
  | .punct p :: ts => if p = c!"..." ∧ afterComments ts = [] then some [c!"..."] else none
  | _ :: _ => none

theorem afterComments_nil : ∀ ts : List MacroToken, afterComments ts = [] ↔ uncomment ts = []
  | [] => ⟨fun _ => rfl, fun _ => rfl⟩
  | t :: ts => by
    have ih := afterComments_nil ts
    simp only [afterComments, uncomment] at ih
    cases h : isRemark t <;> simp [afterComments, uncomment, h, ih]

theorem afterComments_uncomment (ts : List MacroToken) : afterComments (uncomment ts) = [] ↔ afterComments ts = [] := by
  rw [afterComments_nil, afterComments_nil, uncomment, uncomment, List.filter_filter]
  simp

theorem params_uncomment : ∀ ts : List MacroToken, params (uncomment ts) = params ts
  | [] => rfl
  | .comment _ :: ts => params_uncomment ts
  | .ident x :: ts => by
    rw [uncomment_cons rfl]
    simp only [params, params_uncomment ts]
  | .punct p :: ts => by
    rw [uncomment_cons rfl]
    simp only [params, afterComments_uncomment]
  | .arg i :: ts => rfl
  | .lit l :: ts => rfl
  | .identCont s :: ts => rfl

theorem params_after : ∀ ts : List MacroToken, params (afterComments ts) = params ts
  | [] => rfl
  | t :: ts => by
    cases h : isRemark t with
    | false => simp [afterComments, h]
    | true =>
      obtain ⟨s, rfl⟩ := Commented.isRemark_inv h
      exact params_after ts

/-- The end of the parameter list. -/
def paramsEnd (ts : List MacroToken) : Option (List Str) :=
  match afterComments ts with
  | [] => some []
  | .punct p :: r => if p = c!"..." ∧ afterComments r = [] then some [c!"..."] else none
  | _ => none

theorem params_many (n : Nat) : ∀ ts : List MacroToken, ts.length ≤ n → ∃ xs r,
    many0 (preceded «meta» macroId) ts = some (xs, r) ∧ params ts = (paramsEnd r).map (xs ++ ·) := by
  have hs : Shrinks (preceded «meta» macroId) := .preceded shrinks_meta (by
    intro i a r h
    cases i with
    | nil => cases h
    | cons t i =>
      cases t <;> first | cases h | skip
      simp)
  induction n with
  | zero =>
    intro ts h
    obtain rfl : ts = [] := List.length_eq_zero_iff.1 (by omega)
    exact ⟨[], [], rfl, rfl⟩
  | succ n ih =>
    intro ts hn
    obtain ⟨c, hm⟩ := meta_drop ts
    have hl : (afterComments ts).length ≤ ts.length := (List.dropWhile_sublist _).length_le
    have hp := params_after ts
    have stop : macroId (afterComments ts) = none → paramsEnd ts = params ts → ∃ xs r,
        many0 (preceded «meta» macroId) ts = some (xs, r) ∧ params ts = (paramsEnd r).map (xs ++ ·) := by
      intro h1 h2
      refine ⟨[], ts, ?_, by rw [h2]; simp⟩
      rw [many0_eq hs]
      simp only [preceded, map, seq, hm, h1]
    have hend : paramsEnd ts = match afterComments ts with
      | [] => some []
      | .punct p :: r => if p = c!"..." ∧ afterComments r = [] then some [c!"..."] else none
      | _ => none := rfl
    have hnc : ∀ s r, afterComments ts ≠ .comment s :: r := by
      intro s r h
      have := List.head_dropWhile_not isRemark (l := ts) (by intro h'; unfold afterComments at h; rw [h'] at h; cases h)
      simp only [show List.dropWhile isRemark ts = .comment s :: r from h, List.head_cons] at this
      cases this
    generalize hd : afterComments ts = d at hm hl hp stop hend hnc
    cases d with
    | nil => exact stop rfl (by rw [hend, ← hp]; rfl)
    | cons t d =>
      cases t with
      | comment s => exact absurd rfl (hnc s d)
      | arg i => exact stop rfl (by rw [hend, ← hp]; rfl)
      | lit i => exact stop rfl (by rw [hend, ← hp]; rfl)
      | identCont i => exact stop rfl (by rw [hend, ← hp]; rfl)
      | punct p => exact stop rfl (by rw [hend, ← hp]; rfl)
      | ident x =>
        simp only [List.length_cons] at hl
        obtain ⟨xs, r, h1, h2⟩ := ih d (by omega)
        refine ⟨x :: xs, r, ?_, ?_⟩
        · rw [many0_eq hs]
          have : preceded «meta» macroId ts = some (x, d) := by
            simp only [preceded, map, seq, hm]
            rfl
          rw [this]
          dsimp only
          rw [if_neg (by omega), h1]
        · rw [← hp]
          simp only [params, h2, Option.map_map]
          rfl

theorem parseArgs_params (as : List MacroToken) : FnMacro.parseArgs as = (params as).map fun xs => (xs, []) := by
  obtain ⟨xs, r, h1, h2⟩ := params_many _ as (Nat.le_refl _)
  obtain ⟨c, hm⟩ := meta_drop as
  obtain ⟨c', hm'⟩ := meta_drop r
  have hp := params_after as
  by_cases hd : ∃ d, afterComments as = .punct c!"..." :: d
  · obtain ⟨d, hd⟩ := hd
    obtain ⟨c₂, hm₂⟩ := meta_drop d
    rw [hd] at hm hp
    rw [← hp]
    simp only [FnMacro.parseArgs, allConsuming, terminated, Parser.or, map, preceded, seq, hm, punct_self, hm₂, params, true_and]
    cases hx : afterComments d with
    | nil => simp
    | cons t u => simp
  · have hf : punct c!"..." (afterComments as) = none := by
      cases hx : afterComments as with
      | nil => rfl
      | cons t u =>
        cases t <;> first | rfl | skip
        exact punct_ne (by rintro rfl; exact hd ⟨_, hx⟩) _
    rw [h2]
    simp only [preceded] at h1
    simp only [FnMacro.parseArgs, allConsuming, terminated, Parser.or, map, preceded, seq, hm, hf, h1, hm', opt, paramsEnd]
    cases hx : afterComments r with
    | nil =>
      have : punct c!"..." [] = none := rfl
      simp [this, show «meta» [] = some ([], []) from rfl]
    | cons t u =>
      have hnm : ∀ t', isRemark t' = false → «meta» (t' :: u) = some ([], t' :: u) :=
        fun t' h => meta_none (by rintro s r h'; cases h'; cases h)
      have hr : isRemark t = false := by
        have := List.head_dropWhile_not isRemark (l := r) (by intro h'; unfold afterComments at hx; rw [h'] at hx; cases hx)
        simpa only [show List.dropWhile isRemark r = t :: u from hx, List.head_cons, Bool.not_eq_true] using this
      cases t with
      | comment s => cases hr
      | arg i => simp [show ∀ x, punct x (.arg i :: u) = none from fun _ => rfl, hnm _ hr]
      | lit i => simp [show ∀ x, punct x (.lit i :: u) = none from fun _ => rfl, hnm _ hr]
      | identCont i => simp [show ∀ x, punct x (.identCont i :: u) = none from fun _ => rfl, hnm _ hr]
      | ident i => simp [show ∀ x, punct x (.ident i :: u) = none from fun _ => rfl, hnm _ hr]
      | punct p =>
        by_cases hpp : p = c!"..."
        · subst hpp
          obtain ⟨c₃, hm₃⟩ := meta_drop u
          simp only [punct_self, hm₃, true_and]
          cases afterComments u <;> simp
        · simp [punct_ne (fun h => hpp h.symm), hnm _ hr, hpp]

/-! ## The property -/

/-- **C82**: what is read is what is read without the comments. -/
def C82_statement : Prop := ∀ (E : Env), E.Lawful → ∀ (name : Str) (ts : List MacroToken),
  VarMacro.parse E name ts = VarMacro.parse E name (uncomment ts) ∧
  ∀ as, FnMacro.parse E name as ts = FnMacro.parse E name (uncomment as) (uncomment ts)

/-- **C82** is false of the code: `#define A 1 /* one */` is an error. -/
theorem C82_false : ¬ C82_statement := by
  intro h
  have := (h asciiEnv asciiEnv_lawful c!"A" [.lit (.int ⟨1, none⟩), .comment c!"one"]).1
  revert this
  have h1 : VarMacro.parse asciiEnv c!"A" [.lit (.int ⟨1, none⟩), .comment c!"one"] = .error .invalidMacroBody := by rfl
  have h2 : VarMacro.parse asciiEnv c!"A" (uncomment [.lit (.int ⟨1, none⟩), .comment c!"one"]) = .ok ⟨c!"A", .expr (.lit (.int ⟨1, none⟩))⟩ := by
    rfl
  rw [h1, h2]
  intro h
  cases h

/-- The tokens `(A) - B`, with a comment before the minus. -/
def castOrMinus : List MacroToken :=
  [.punct c!"(", .ident c!"A", .punct c!")", .comment c!"minus", .punct c!"-", .ident c!"B"]

/-- A comment can also change what is read: `(A) /* minus */ - B` is a difference, `(A) - B` is a cast of `-B`. -/
theorem C82_false_tree :
    VarMacro.parse asciiEnv c!"X" castOrMinus = .ok ⟨c!"X", .expr (.bin (.var (.plain c!"A")) .sub (.var (.plain c!"B")))⟩ ∧
    VarMacro.parse asciiEnv c!"X" (uncomment castOrMinus) =
      .ok ⟨c!"X", .expr (.cast (.ident (.plain c!"A") false) (.un .minus (.var (.plain c!"B"))))⟩ :=
  ⟨rfl, rfl⟩

/-- The other places: after a cast, inside a type, after `sizeof`. -/
theorem C82_false_places :
    MacroBody.parse asciiEnv [.punct c!"(", .ident c!"int", .punct c!")", .comment c!"c", .lit (.int ⟨1, none⟩)] = none ∧
    MacroBody.parse asciiEnv [.punct c!"(", .ident c!"unsigned", .comment c!"c", .ident c!"int", .punct c!")", .lit (.int ⟨1, none⟩)] = none ∧
    MacroBody.parse asciiEnv [.ident c!"sizeof", .comment c!"c", .punct c!"(", .ident c!"int", .punct c!")"] =
      some (.expr (.call (.plain c!"sizeof") [.var (.plain c!"int")]), []) ∧
    MacroBody.parse asciiEnv [.punct c!"(", .ident c!"int", .punct c!")", .lit (.int ⟨1, none⟩)] =
      some (.expr (.cast (.builtIn .int) (.lit (.int ⟨1, none⟩))), []) ∧
    MacroBody.parse asciiEnv [.punct c!"(", .ident c!"unsigned", .ident c!"int", .punct c!")", .lit (.int ⟨1, none⟩)] =
      some (.expr (.cast (.builtIn .uInt) (.lit (.int ⟨1, none⟩))), []) ∧
    MacroBody.parse asciiEnv [.ident c!"sizeof", .punct c!"(", .ident c!"int", .punct c!")"] =
      some (.expr (.sizeOf (.builtIn .int)), []) := by
  refine ⟨?_, ?_, ?_, ?_, ?_, ?_⟩ <;> kernel_rfl

/-- **C82**, for expressions with comments where `GramC` has them, comments in front, and bodies of nothing but comments;
for parameter lists without restriction.  Missing: comments elsewhere (there `C82_statement` is false), and statements. -/
theorem C82_partial (E : Env) (name : Str) {ts : List MacroToken} (h : Comments ts ∨ ∃ cs us e, ts = cs ++ us ∧ Comments cs ∧ GramC 12 us e) :
    VarMacro.parse E name ts = VarMacro.parse E name (uncomment ts) ∧
    ∀ as, FnMacro.parse E name as ts = FnMacro.parse E name (uncomment as) (uncomment ts) := by
  have hb : MacroBody.parse E ts = MacroBody.parse E (uncomment ts) := by
    rcases h with h | ⟨cs, us, e, rfl, hc, h⟩
    · have := Commented.meta_eat h noComment_nil
      rw [List.append_nil] at this
      rw [uncomment_comments h]
      simp only [MacroBody.parse, this]
      rfl
    · rw [h.body E hc, uncomment_append, uncomment_comments hc, List.nil_append, h.gram.body E]
  refine ⟨by simp only [VarMacro.parse, hb], fun as => ?_⟩
  simp only [FnMacro.parse, hb, parseArgs_params, params_uncomment]

/-- What is read is what the expression means by the grammar. -/
theorem C82_read_partial (E : Env) {name : Str} (hn : isIdentifier E name = true) {cs us : List MacroToken} {e : Expr} (hc : Comments cs)
    (h : GramC 12 us e) : VarMacro.parse E name (cs ++ us) = .ok ⟨name, .expr e⟩ := by
  simp only [VarMacro.parse, hn, if_true, h.body E hc]

/-- `1 /* one */ + f(/* none */) * (x /* x */ - 2)`. -/
example : GramC 12 [.lit (.int ⟨1, none⟩), .comment c!"one", .punct c!"+", .ident c!"f", .punct c!"(", .comment c!"none", .punct c!")",
      .punct c!"*", .punct c!"(", .ident c!"x", .comment c!"x", .punct c!"-", .lit (.int ⟨2, none⟩), .punct c!")"]
    (.bin (.lit (.int ⟨1, none⟩)) .add (.bin (.call (.plain c!"f") []) .mul (.bin (.var (.plain c!"x")) .sub (.lit (.int ⟨2, none⟩))))) := by
  have nil : Comments [] := by simp [Comments]
  have one : ∀ s, Comments [.comment s] := by simp [Comments, isRemark]
  have up : ∀ {n m ts e}, GramC n ts e → n ≤ m → m ≤ 12 → GramC m ts e := by
    intro n m ts e h hl hm
    induction m with
    | zero => obtain rfl : n = 0 := by omega
              exact h
    | succ m ih =>
      by_cases h' : n = m + 1
      · subst h'; exact h
      · exact .up (ih (by omega) (by omega)) (by omega)
  have hx : GramC 12 _ _ := up (.bin (ℓ := 3) (p := c!"-") (op := .sub) (by decide) (up (.name (.ident (x := c!"x") (by decide))) (by decide) (by decide))
    (one c!"x") nil (up (.lit (l := .int ⟨2, none⟩)) (by decide) (by decide))) (by decide) (by decide)
  have hf : GramC 2 _ _ := up (.call (.ident (x := c!"f") (by decide)) nil (one c!"none") .none nil) (by decide) (by decide)
  have hm : GramC 3 _ _ := .bin (ℓ := 2) (p := c!"*") (op := .mul) (by decide) (.up hf (by decide)) nil nil
    (up (.paren nil hx nil (by rintro t n hn h; cases h)) (by decide) (by decide))
  have ha : GramC 4 _ _ := .bin (ℓ := 3) (p := c!"+") (op := .add) (by decide) (up (.lit (l := .int ⟨1, none⟩)) (by decide) (by decide))
    (one c!"one") nil hm
  exact up ha (by decide) (by decide)

/-- Comments among parameters. -/
example : FnMacro.parseArgs [.comment c!"first", .ident c!"x", .comment c!"second", .ident c!"y", .comment c!"rest", .punct c!"...",
    .comment c!"end"] = some ([c!"x", c!"y", c!"..."], []) := by decide +kernel

end CMacro
