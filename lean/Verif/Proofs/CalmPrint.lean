import Verif.Proofs.CalmStmt

/-!
# The tokens printed for a calm body can be built
-/

namespace CMacro

open Spec

section
variable {E : Env} {C : Ctx} {L : Loc} {ps : List Str} {m : Bool}

/-- An identifier of ASCII characters. -/
def asciiWord : Str → Bool
  | [] => false
  | c :: cs => (c.isAlpha || c == '_') && decide (c.toNat < 128) && cs.all fun x => (x.isAlphanum || x == '_') && decide (x.toNat < 128)

theorem asciiWord_word (hE : E.Lawful) {s : Str} (h : asciiWord s = true) : Word E s := by
  cases s with
  | nil => cases h
  | cons c cs =>
    simp only [asciiWord, Bool.and_eq_true, Bool.or_eq_true, beq_iff_eq, decide_eq_true_eq, List.all_eq_true] at h
    refine ⟨?_, fun x hx => ?_⟩
    · rw [hE.startAscii c h.1.2]
      exact h.1.1
    · obtain ⟨h1, h2⟩ := h.2 x hx
      rw [hE.contAscii x h2]
      simpa using h1

/-- Tokens fixed in the source. -/
def fixedToks (ts : List RTok) : Bool := ts.all fun
  | .id s => asciiWord s
  | .bad => false
  | _ => true

theorem toksOk_append {a b : List RTok} (ha : toksOk E a = true) (hb : toksOk E b = true) : toksOk E (a ++ b) = true := by
  unfold toksOk at *
  rw [List.all_append, ha, hb]; rfl

theorem word_id {s : Str} (h : Word E s) : toksOk E [.id s] = true := by
  simp [toksOk, RTok.ok, isIdent_iff.2 h]

theorem toksOk_fixed (hE : E.Lawful) {ts : List RTok} (h : fixedToks ts = true) : toksOk E ts = true := by
  unfold toksOk
  unfold fixedToks at h
  rw [List.all_eq_true] at h ⊢
  intro x hx
  have := h x hx
  cases x with
  | id s => exact isIdent_iff.2 (asciiWord_word hE this)
  | bad => cases this
  | _ => rfl

theorem toksOk_sep {sep : List RTok} (hs : toksOk E sep = true) : ∀ {xs : List (List RTok)}, (∀ x ∈ xs, toksOk E x = true) →
    toksOk E (sepToks sep xs) = true
  | [], _ => rfl
  | [x], h => h x (by simp)
  | x :: y :: zs, h => by
    show toksOk E (x ++ sep ++ sepToks sep (y :: zs)) = true
    exact toksOk_append (toksOk_append (h x (by simp)) hs) (toksOk_sep hs fun z hz => h z (List.mem_cons_of_mem _ hz))

theorem toksOk_flatten : ∀ {xs : List (List RTok)}, (∀ x ∈ xs, toksOk E x = true) → toksOk E xs.flatten = true
  | [], _ => rfl
  | x :: xs, h => by
    rw [List.flatten_cons]
    exact toksOk_append (h x (by simp)) (toksOk_flatten fun z hz => h z (List.mem_cons_of_mem _ hz))

theorem toksOk_comma (hE : E.Lawful) {xs : List (List RTok)} (h : ∀ x ∈ xs, toksOk E x = true) : toksOk E (commaToks xs) = true := by
  unfold commaToks
  induction xs with
  | nil => rfl
  | cons x xs ih =>
    rw [List.flatMap_cons]
    exact toksOk_append (toksOk_append (h x (by simp)) (toksOk_fixed hE (by decide +kernel))) (ih fun z hz => h z (List.mem_cons_of_mem _ hz))

theorem path_ok (hE : E.Lawful) {p : RPath} (h : ∀ s ∈ p.segs, Word E s) : toksOk E p.toks = true := by
  unfold RPath.toks
  refine toksOk_append ?_ (toksOk_sep (toksOk_fixed hE (by decide +kernel)) fun x hx => ?_)
  · split
    · exact toksOk_fixed hE (by decide +kernel)
    · rfl
  · obtain ⟨s, hs, rfl⟩ := List.mem_map.1 hx
    exact word_id (h s hs)

theorem prefix_ok (hE : E.Lawful) {p : Option RPath} (h : ∀ q, p = some q → ∀ s ∈ q.segs, Word E s) : toksOk E (prefixToks p) = true := by
  cases p with
  | none => rfl
  | some p => exact toksOk_append (path_ok hE (h p rfl)) (toksOk_fixed hE (by decide +kernel))

theorem rty_ok (hE : E.Lawful) : ∀ {t : RTy}, WordTy E t → toksOk E t.toks = true
  | .ptr m t, h => by
    show toksOk E (q!"*" ++ (if m then q!"mut" else q!"const") ++ t.toks) = true
    refine toksOk_append (toksOk_append (toksOk_fixed hE (by decide +kernel)) ?_) (rty_ok hE h)
    split <;> exact toksOk_fixed hE (by decide +kernel)
  | .unit, _ => rfl
  | .verbatim _, _ => rfl
  | .path (.rich _ _) p, h => rfl
  | .path .plain p, h => path_ok hE h
  | .other _, _ => rfl

/-- Splits a list of tokens into parts that are known to be fine. -/
macro "toks_ok" h:term : tactic => `(tactic| repeat' (first
  | assumption
  | exact toksOk_fixed $h (by decide +kernel)
  | rfl
  | apply toksOk_append))

theorem prefixed_word (hE : E.Lawful) {p : Option RPath} {s : Str} (hp : ∀ q, p = some q → ∀ s ∈ q.segs, Word E s)
    (hs : asciiWord s = true) : WordTy E (.prefixed p s) := by
  unfold RTy.prefixed
  split
  · intro x hx
    simp only [List.mem_singleton] at hx
    subst hx
    exact asciiWord_word hE hs
  · intro x hx
    rcases List.mem_append.1 hx with hx | hx
    · exact hp _ rfl x hx
    · simp only [List.mem_singleton] at hx
      subst hx
      exact asciiWord_word hE hs

theorem builtIn_word (hC : CalmCtx C) (hE : C.env.Lawful) (b : BuiltInType) : WordTy C.env (b.toRust C) := by
  have hn : ∀ q, (none : Option RPath) = some q → ∀ s ∈ q.segs, Word C.env s := by simp
  cases b
  case sizeT =>
    simp only [BuiltInType.toRust]
    split
    · rename_i t ht
      exact hC.ty _ _ ht
    · split
      · exact prefixed_word hE hC.ffi (by decide +kernel)
      · exact prefixed_word hE hn (by decide +kernel)
  all_goals first
    | exact prefixed_word hE hn (by decide +kernel)
    | exact prefixed_word hE hC.ffi (by decide +kernel)

theorem staticRef_ok (hE : E.Lawful) {L : Loc} {t : List RTok} (h : toksOk E t = true) : toksOk E (staticRef L t) = true := by
  unfold staticRef
  split <;> toks_ok hE

/-- Parameter names that are identifiers or `...`. -/
def NamesOk (E : Env) (ps : List Str) : Prop := ∀ s ∈ ps, s = c!"..." ∨ Word E s

theorem arg_ok (hE : C.env.Lawful) (hL : L.argNames = ps) (hp : NamesOk C.env ps) {i : Nat} (h : i < ps.length) :
    toksOk C.env (argToks ⟨C, L, m⟩ i) = true := by
  unfold argToks
  simp only [hL, List.getElem?_eq_getElem h]
  split
  · exact toksOk_fixed hE (by decide +kernel)
  · rename_i hn
    have hw := word_id ((hp _ (List.getElem_mem h)).resolve_left hn)
    split <;> toks_ok hE

theorem cont_ok (hE : C.env.Lawful) (hL : L.argNames = ps) (hp : NamesOk C.env ps) {c : IdentCont} (h : CalmPart C.env ps.length c) :
    toksOk C.env (c.toks ⟨C, L, m⟩) = true := by
  cases c with
  | arg i => exact arg_ok hE hL hp h
  | plain s => exact word_id h
  | int n => rfl

theorem name_ok (hC : CalmCtx C) (hE : C.env.Lawful) (hL : L.argNames = ps) (hp : NamesOk C.env ps) {n : IdentExpr}
    (h : CalmName C.env ps.length n) : toksOk C.env (n.toks ⟨C, L, m⟩) = true := by
  cases n with
  | arg i => exact arg_ok hE hL hp h
  | plain s => exact word_id h
  | concat ids =>
    unfold IdentExpr.toks
    have h1 := prefix_ok hE hC.trait
    have h2 : toksOk C.env (sepToks q!"," (ids.map (·.toks ⟨C, L, m⟩))) = true := by
      refine toksOk_sep rfl fun x hx => ?_
      obtain ⟨c, hc, rfl⟩ := List.mem_map.1 hx
      exact cont_ok hE hL hp (h c hc)
    toks_ok hE

theorem ty_ok (hC : CalmCtx C) (hE : C.env.Lawful) (hL : L.argNames = ps) (hp : NamesOk C.env ps) : ∀ {t : Ty},
    CalmTy C.env ps.length t → toksOk C.env (t.toks ⟨C, L, m⟩) = true
  | .builtIn b, _ => rty_ok hE (builtIn_word hC hE b)
  | .ident n _, h => name_ok hC hE hL hp h
  | .path lc segs, h => path_ok hE (p := ⟨lc, segs⟩) h
  | .ptr t, h => by
    have := ty_ok hC hE hL hp (t := t) h
    show toksOk C.env (q!"* mut" ++ t.toks _) = true
    toks_ok hE
  | .qualified t q, h => by
    have := ty_ok hC hE hL hp (t := t) h
    cases t with
    | ptr t =>
      simp only [Ty.toks] at this ⊢
      have h' : toksOk C.env (t.toks ⟨C, L, m⟩) = true := ty_ok hC hE hL hp (t := t) h
      split <;> toks_ok hE
    | _ => exact this

/-- The type of wide characters is supported, if there is one. -/
def WideOk (C : Ctx) : Prop := ∀ t, C.resolveTy c!"wchar_t" = some t → ∃ u, Ty.fromRust C.ffiPrefix t = .ok u

/-- A wide string requires the type of its characters. -/
def WideNode (C : Ctx) (e : Expr) : Prop := ∀ ws, e = .lit (.string (.wide ws)) → WideOk C

theorem NodeInv.wide (C : Ctx) (L : Loc) : NodeInv C L fun _ => WideNode C := by
  constructor
  case mono => exact fun _ h => h
  case lit =>
    rintro l st ⟨s, t, h⟩ ws hws
    cases hws
    intro u hu
    simp only [Lit.finish, LitString.finish, finishWchar, wcharTy, Ty.finish, IdentExpr.finish, hu] at h
    cases hf : Ty.fromRust C.ffiPrefix u with
    | ok v => exact ⟨v, rfl⟩
    | error e => simp [hf] at h
  all_goals
    intros
    intro ws h
    cases h

theorem wchar_ok (hC : CalmCtx C) (hE : C.env.Lawful) (hL : L.argNames = ps) (hp : NamesOk C.env ps) (hw : WideOk C) :
    toksOk C.env (wcharToks ⟨C, L, m⟩) = true := by
  unfold wcharToks
  split
  · rename_i t ht
    obtain ⟨u, hu⟩ := hw t ht
    simp only [hu]
    exact ty_ok hC hE hL hp ((calm_fromRust (hC.ty _ _ ht)).1 u hu)
  · exact toksOk_fixed hE (by decide +kernel)

theorem charPtr_ok (hC : CalmCtx C) (hE : C.env.Lawful) {b : List RTok} (h : toksOk C.env b = true) :
    toksOk C.env (charPtrToks ⟨C, L, m⟩ b) = true := by
  unfold charPtrToks
  have h1 := prefix_ok hE hC.ffi
  have h2 := staticRef_ok hE (L := L) (toksOk_fixed hE (ts := q!"[ u8 ]") (by decide +kernel))
  toks_ok hE

theorem file_ok (hC : CalmCtx C) (hE : C.env.Lawful) : toksOk C.env (fileToks ⟨C, L, m⟩) = true := by
  unfold fileToks
  have h1 := prefix_ok hE hC.trait
  toks_ok hE

theorem limitName_word {id t : Str} (h : limitName id = some t) : asciiWord t = true := by
  unfold limitName at h
  repeat' split at h
  all_goals first | (cases h; decide +kernel) | cases h

theorem var_ok (hC : CalmCtx C) (hE : C.env.Lawful) (hL : L.argNames = ps) (hp : NamesOk C.env ps) {n : IdentExpr}
    (h : CalmName C.env ps.length n) : toksOk C.env (varToks ⟨C, L, m⟩ n) = true := by
  have h1 := prefix_ok hE hC.trait
  have h2 := prefix_ok hE hC.ffi
  have h3 := file_ok (L := L) (m := m) hC hE
  unfold varToks
  split
  · rename_i id
    split
    · toks_ok hE
    · split
      · refine charPtr_ok hC hE ?_
        toks_ok hE
      · split
        · rename_i t ht
          have := word_id (asciiWord_word hE (limitName_word ht))
          toks_ok hE
        · split
          · rename_i e he
            have := (hC.variant _ _ _ he).2
            unfold toksOk
            rw [List.all_eq_true]
            intro x hx
            have := this x hx
            cases x with
            | id s => exact isIdent_iff.2 this
            | bad => exact this.elim
            | _ => rfl
          · exact word_id h
  · exact name_ok hC hE hL hp h

theorem lit_char_ok (c : LitChar) : toksOk E c.toks = true := by
  cases c <;> simp only [LitChar.toks] <;> split <;> rfl

theorem ints_ok {α : Type} {f : α → List RTok} {xs : List α} (h : ∀ x ∈ xs, toksOk E (f x) = true) :
    toksOk E (arrayToks (xs.map f)) = true := by
  unfold arrayToks
  refine toksOk_append (toksOk_append rfl (toksOk_sep rfl fun x hx => ?_)) rfl
  obtain ⟨a, ha, rfl⟩ := List.mem_map.1 hx
  exact h a ha

theorem arrayTy_ok {t : List RTok} {n : Nat} (h : toksOk E t = true) : toksOk E (arrayTy t n) = true := by
  unfold arrayTy
  exact toksOk_append (toksOk_append (toksOk_append (toksOk_append rfl h) rfl) rfl) rfl

theorem constPtr_ok (hE : E.Lawful) {n : Str} {t v : List RTok} (hn : asciiWord n = true) (ht : toksOk E t = true) (hv : toksOk E v = true) :
    toksOk E (constPtrToks n t v) = true := by
  unfold constPtrToks
  have := word_id (asciiWord_word hE hn)
  toks_ok hE

theorem lit_string_ok (hC : CalmCtx C) (hE : C.env.Lawful) (hL : L.argNames = ps) (hp : NamesOk C.env ps) {s : LitString}
    (hw : ∀ ws, s = .wide ws → WideOk C) (a : Bool) :
    toksOk C.env (s.toks ⟨C, L, m⟩ a).1 = true ∧ toksOk C.env (s.toks ⟨C, L, m⟩ a).2 = true := by
  have h1 := prefix_ok hE hC.trait
  have h2 := prefix_ok hE hC.ffi
  have i1 : ∀ (n : Nat) (x : Str), toksOk C.env [RTok.int n x] = true := fun _ _ => rfl
  cases s with
  | ordinary bs =>
    simp only [LitString.toks]
    have h3 : toksOk C.env (staticRef L (q!"[ u8 ;" ++ [.int (bs ++ [0]).length []] ++ q!"]")) = true := by
      refine staticRef_ok hE ?_
      toks_ok hE
    have h4 : toksOk C.env [RTok.bytes (bs ++ [0])] = true := rfl
    have h5 : toksOk C.env ((match C.traitPrefix with | some p => p.toks ++ q!":: ffi ::" | none => []) ++ q!"CStr") = true := by
      refine toksOk_append ?_ (toksOk_fixed hE (by decide +kernel))
      split
      · rename_i p hp'
        exact toksOk_append (path_ok hE (hC.trait p hp')) (toksOk_fixed hE (by decide +kernel))
      · rfl
    split
    · split
      · constructor <;> toks_ok hE
      · exact ⟨h3, h4⟩
    · constructor <;> toks_ok hE
  | utf8 s =>
    simp only [LitString.toks]
    have h3 : toksOk C.env (arrayTy q!"u8" (utf8EncStr s ++ [0]).length) = true :=
      arrayTy_ok (toksOk_fixed hE (by decide +kernel))
    have h4 : toksOk C.env [RTok.bytes (utf8EncStr s ++ [0])] = true := rfl
    split
    · exact ⟨h3, h4⟩
    · exact ⟨toksOk_fixed hE (ts := q!"* const u8") (by decide +kernel), constPtr_ok hE (by decide +kernel) h3 h4⟩
  | utf16 s =>
    simp only [LitString.toks]
    have h3 : toksOk C.env (arrayTy q!"u16" (utf16Words s).length) = true :=
      arrayTy_ok (toksOk_fixed hE (by decide +kernel))
    have h4 : toksOk C.env (arrayToks ((utf16Words s).map fun (w : Nat) => [RTok.int w c!"u16"])) = true :=
      ints_ok fun _ _ => rfl
    split
    · exact ⟨h3, h4⟩
    · exact ⟨toksOk_fixed hE (ts := q!"* const u16") (by decide +kernel), constPtr_ok hE (by decide +kernel) h3 h4⟩
  | utf32 s =>
    simp only [LitString.toks]
    have h3 : toksOk C.env (arrayTy q!"u32" (s.map Char.toNat ++ [0]).length) = true :=
      arrayTy_ok (toksOk_fixed hE (by decide +kernel))
    have h4 : toksOk C.env (arrayToks ((s.map Char.toNat ++ [0]).map fun (w : Nat) => [RTok.int w c!"u32"])) = true :=
      ints_ok fun _ _ => rfl
    split
    · exact ⟨h3, h4⟩
    · exact ⟨toksOk_fixed hE (ts := q!"* const u32") (by decide +kernel), constPtr_ok hE (by decide +kernel) h3 h4⟩
  | wide ws =>
    have hc := wchar_ok (m := m) hC hE hL hp (hw ws rfl)
    simp only [LitString.toks]
    have h3 : toksOk C.env (arrayTy (wcharToks ⟨C, L, m⟩) (ws ++ [0]).length) = true := arrayTy_ok hc
    have h4 : toksOk C.env (arrayToks ((ws ++ [0]).map fun (w : Nat) => [RTok.int w []] ++ q!"as" ++ wcharToks ⟨C, L, m⟩)) = true := by
      refine ints_ok fun w _ => ?_
      toks_ok hE
    split
    · exact ⟨h3, h4⟩
    · exact ⟨toksOk_append (toksOk_fixed hE (by decide +kernel)) hc, constPtr_ok hE (by decide +kernel) h3 h4⟩

theorem stringify_ok (hC : CalmCtx C) (hE : C.env.Lawful) (hL : L.argNames = ps) {n : IdentExpr}
    (h : CalmExpr C.env ps (.stringify n)) : toksOk C.env (stringifyInner ⟨C, L, m⟩ n) = true := by
  have h1 := prefix_ok hE hC.trait
  have h3 := file_ok (L := L) (m := m) hC hE
  cases n with
  | arg i =>
    obtain ⟨s, hs, hw⟩ := h
    have := word_id hw
    simp only [stringifyInner, hL, hs]
    toks_ok hE
  | plain id =>
    simp only [stringifyInner]
    split
    · toks_ok hE
    · split <;> toks_ok hE
  | concat ids =>
    simp only [stringifyInner]
    toks_ok hE

theorem paren_ok {b : Bool} {x : List RTok} (h : toksOk E x = true) : toksOk E (parenIf b x) = true := by
  unfold parenIf
  split
  · exact toksOk_append (toksOk_append rfl h) rfl
  · exact h

theorem kid0_ok {xs : List (List RTok)} (h : ∀ x ∈ xs, toksOk E x = true) : toksOk E (kid0 xs) = true := by
  unfold kid0
  split
  · exact h _ (by simp)
  · rfl

theorem kid1_ok {xs : List (List RTok)} (h : ∀ x ∈ xs, toksOk E x = true) : toksOk E (kid1 xs) = true := by
  unfold kid1
  split
  · exact h _ (by simp)
  · rfl

theorem deref_ok (hC : CalmCtx C) (hE : C.env.Lawful) {x : Expr} {raw : List RTok} {kids : List (List RTok)}
    (hr : toksOk C.env raw = true) (hk : ∀ k ∈ kids, toksOk C.env k = true) : toksOk C.env (derefToks ⟨C, L, m⟩ x raw kids) = true := by
  have h1 := prefix_ok hE hC.trait
  have k0 := kid0_ok hk
  have k1 := kid1_ok hk
  have hpr : ∀ b, toksOk C.env (parenIf b raw) = true := fun _ => paren_ok hr
  have hp0 : ∀ b, toksOk C.env (parenIf b (kid0 kids)) = true := fun _ => paren_ok k0
  unfold derefToks
  simp only
  split
  · split
    · unfold readVolatile; toks_ok hE
    · exact toksOk_append rfl (hpr _)
  · repeat' (first | exact hp0 _ | assumption | exact toksOk_fixed hE (by decide +kernel) | apply toksOk_append)
  · repeat' (first | exact hp0 _ | assumption | exact toksOk_fixed hE (by decide +kernel) | apply toksOk_append)
  · unfold derefStep; toks_ok hE
  · unfold derefStep; toks_ok hE
  · unfold derefStep; toks_ok hE
  · unfold derefStep; toks_ok hE
  · exact toksOk_append rfl (hpr _)

theorem unary_ok (hC : CalmCtx C) (hE : C.env.Lawful) {op : UnOp} {x : Expr} {raw : List RTok} {kids : List (List RTok)}
    (hr : toksOk C.env raw = true) (hk : ∀ k ∈ kids, toksOk C.env k = true) :
    toksOk C.env (unaryToks ⟨C, L, m⟩ op x raw kids) = true := by
  have h1 := prefix_ok hE hC.trait
  have k0 := kid0_ok hk
  have hpr : ∀ b, toksOk C.env (parenIf b raw) = true := fun _ => paren_ok hr
  cases op <;> simp only [unaryToks]
  case deref => exact deref_ok hC hE hr hk
  case not => exact toksOk_append rfl (hpr _)
  case comp => exact toksOk_append rfl (hpr _)
  case plus => exact toksOk_append rfl (hpr _)
  case minus => exact toksOk_append rfl (hpr _)
  case addrOf => toks_ok hE
  all_goals
    split
    · unfold volatileBlock readVolatile; toks_ok hE
    · toks_ok hE

theorem binary_ok (hC : CalmCtx C) (hE : C.env.Lawful) {op : BinOp} {l r : Expr} {lt rt : List RTok} {kids : List (List RTok)}
    (hl : toksOk C.env lt = true) (hr : toksOk C.env rt = true) (hk : ∀ k ∈ kids, toksOk C.env k = true) :
    toksOk C.env (binaryToks ⟨C, L, m⟩ l op r lt rt kids) = true := by
  have h1 := prefix_ok hE hC.trait
  have k0 := kid0_ok hk
  unfold binaryToks
  split
  · split
    · unfold volatileBlock readVolatile
      split <;> toks_ok hE
    · toks_ok hE
  · exact toksOk_append (toksOk_append (paren_ok hl) rfl) (paren_ok hr)

theorem castLit_ok (v : Int) : toksOk E (castLit v) = true := by
  unfold castLit
  repeat' split
  all_goals rfl

theorem cast_ok (hC : CalmCtx C) (hE : C.env.Lawful) (hL : L.argNames = ps) (hp : NamesOk C.env ps) {t : Ty} {x : Expr} {raw : List RTok}
    (ht : CalmTy C.env ps.length t) (hr : toksOk C.env raw = true) : toksOk C.env (castToks ⟨C, L, m⟩ t x raw) = true := by
  have h1 := prefix_ok hE hC.trait
  have h2 := ty_ok (m := m) hC hE hL hp ht
  have h3 : toksOk C.env (castOperand x raw) = true := by
    unfold castOperand
    split
    · exact castLit_ok _
    · exact paren_ok hr
  unfold castToks
  split
  · toks_ok hE
  · split
    · toks_ok hE
    · split <;> toks_ok hE

theorem callArg_ok (hE : C.env.Lawful) (hL : L.argNames = ps) {i : Bool} {a : Expr} {raw : List RTok}
    (h : CalmExpr C.env ps a) (hr : toksOk C.env raw = true) : toksOk C.env (callArgToks ⟨C, L, m⟩ i a raw) = true := by
  have h1 : toksOk C.env (argNameToks ⟨C, L, m⟩ a) = true := by
    unfold argNameToks
    split
    · rename_i i
      have h' : i < ps.length := h
      simp only [hL, List.getElem?_eq_getElem h']
      rfl
    · rfl
  unfold callArgToks
  refine toksOk_append h1 ?_
  split
  · exact hr
  · split
    · unfold parenToks; toks_ok hE
    · exact hr

theorem zip_ok {f : Expr → List RTok → List RTok} : ∀ {es : List Expr} {rs : List (List RTok)}, CalmExprs E ps es →
    (∀ e r, CalmExpr E ps e → toksOk E r = true → toksOk E (f e r) = true) → (∀ r ∈ rs, toksOk E r = true) →
    ∀ x ∈ List.zipWith f es rs, toksOk E x = true
  | [], _, _, _, _ => by simp
  | _ :: _, [], _, _, _ => by simp
  | e :: es, r :: rs, he, hf, hr => by
    intro x hx
    rw [List.zipWith_cons_cons] at hx
    rcases List.mem_cons.1 hx with rfl | hx
    · exact hf e r he.1 (hr r (by simp))
    · exact zip_ok he.2 hf (fun r' h' => hr r' (List.mem_cons_of_mem _ h')) x hx

mutual
theorem expr_ok (hC : CalmCtx C) (hE : C.env.Lawful) (hL : L.argNames = ps) (hp : NamesOk C.env ps) : ∀ e : Expr,
    CalmExpr C.env ps e → e.All (WideNode C) → toksOk C.env (e.toks ⟨C, L, m⟩) = true
  | .var n, h, _ => var_ok hC hE hL hp h
  | .cast t x, h, hw => cast_ok hC hE hL hp h.1 (expr_ok hC hE hL hp x h.2 hw.2)
  | .call n as, h, hw => by
    have h1 := prefix_ok hE hC.trait
    have h2 := name_ok (m := m) hC hE hL hp h.1
    have h3 := exprs_ok hC hE hL hp as h.2 hw.2
    have h4 : ∀ b, toksOk C.env (sepToks q!"," (List.zipWith (callArgToks ⟨C, L, m⟩ b) as (Expr.toksL ⟨C, L, m⟩ as))) = true :=
      fun b => toksOk_sep rfl (zip_ok h.2 (fun e r he hr => callArg_ok hE hL he hr) h3)
    simp only [Expr.toks, callToks]
    refine toksOk_append (toksOk_append (toksOk_append ?_ rfl) (h4 _)) rfl
    split <;> toks_ok hE
  | .lit l, _, hw => by
    cases l with
    | char c => exact lit_char_ok c
    | string s => exact (lit_string_ok hC hE hL hp (fun ws hs => hw ws (by rw [hs])) false).2
    | float f => rfl
    | int n => rfl
  | .stringify n, h, _ => by
    have h1 := prefix_ok hE hC.trait
    have h2 := stringify_ok (m := m) hC hE hL h
    simp only [Expr.toks]
    refine charPtr_ok hC hE ?_
    toks_ok hE
  | .concatStr es, h, hw => by
    have h1 := prefix_ok hE hC.trait
    have h3 := exprs_ok hC hE hL hp es h hw.2
    have h4 : toksOk C.env (sepToks q!"," (List.zipWith (concatPartToks ⟨C, L, m⟩) es (Expr.toksL ⟨C, L, m⟩ es))) = true := by
      refine toksOk_sep rfl (zip_ok h (fun e r he hr => ?_) h3)
      unfold concatPartToks
      split
      · split
        · exact file_ok hC hE
        · exact hr
      · exact stringify_ok hC hE hL he
      · exact hr
    simp only [Expr.toks]
    refine charPtr_ok hC hE ?_
    toks_ok hE
  | .un op x, h, hw => by
    simp only [Expr.toks]
    exact unary_ok hC hE (expr_ok hC hE hL hp x h hw.2) (kids_ok hC hE hL hp x h hw.2)
  | .bin l op r, h, hw => by
    simp only [Expr.toks]
    exact binary_ok hC hE (expr_ok hC hE hL hp l h.2.1 hw.2.1) (expr_ok hC hE hL hp r h.2.2 hw.2.2) (kids_ok hC hE hL hp l h.2.1 hw.2.1)
  | .ternary c t f, h, hw => by
    have h1 := expr_ok hC hE hL hp c h.1 hw.2.1
    have h2 := expr_ok hC hE hL hp t h.2.1 hw.2.2.1
    have h3 := expr_ok hC hE hL hp f h.2.2 hw.2.2.2
    simp only [Expr.toks]
    toks_ok hE
  | .sizeOf t, h, _ => by
    have h1 := prefix_ok hE hC.trait
    have h2 := ty_ok (m := m) hC hE hL hp h
    have h3 := rty_ok hE (builtIn_word hC hE .sizeT)
    simp only [Expr.toks]
    toks_ok hE
theorem exprs_ok (hC : CalmCtx C) (hE : C.env.Lawful) (hL : L.argNames = ps) (hp : NamesOk C.env ps) : ∀ es : List Expr,
    CalmExprs C.env ps es → Expr.AllL (WideNode C) es → ∀ x ∈ Expr.toksL ⟨C, L, m⟩ es, toksOk C.env x = true
  | [], _, _ => by simp [Expr.toksL]
  | e :: es, h, hw => by
    intro x hx
    simp only [Expr.toksL] at hx
    rcases List.mem_cons.1 hx with rfl | hx
    · exact expr_ok hC hE hL hp e h.1 hw.1
    · exact exprs_ok hC hE hL hp es h.2 hw.2 x hx
theorem kids_ok (hC : CalmCtx C) (hE : C.env.Lawful) (hL : L.argNames = ps) (hp : NamesOk C.env ps) : ∀ e : Expr,
    CalmExpr C.env ps e → e.All (WideNode C) → ∀ x ∈ Expr.kids ⟨C, L, m⟩ e, toksOk C.env x = true
  | .un _ y, h, hw => by
    intro x hx
    simp only [Expr.kids, List.mem_singleton] at hx
    subst hx
    exact expr_ok hC hE hL hp y h hw.2
  | .bin l _ r, h, hw => by
    intro x hx
    simp only [Expr.kids, List.mem_cons, List.not_mem_nil, or_false] at hx
    rcases hx with rfl | rfl
    · exact expr_ok hC hE hL hp l h.2.1 hw.2.1
    · exact expr_ok hC hE hL hp r h.2.2 hw.2.2
  | .var _, _, _ | .cast _ _, _, _ | .call _ _, _, _ | .lit _, _, _ | .stringify _, _, _ | .concatStr _, _, _
  | .ternary _ _ _, _, _ | .sizeOf _, _, _ => by simp [Expr.kids]
end

theorem match_ok {outs : List (Dir × RegConstraint × Expr)} {ins : List (RegConstraint × Expr)} :
    ∀ {cs : List (RegConstraint × Expr)}, removable (cs.map (·.1)) outs.length ins.length →
    ∀ {p : Expr → Prop}, (∀ o ∈ outs, p o.2.2) → (∀ i ∈ ins, p i.2) →
    ∃ outs' ins', matchConstraints cs outs ins = some (outs', ins') ∧ (∀ o ∈ outs', p o.2.2) ∧ (∀ i ∈ ins', p i.2) := by
  intro cs
  induction cs generalizing outs ins with
  | nil => intro _ p ho hi; exact ⟨outs, ins, rfl, ho, hi⟩
  | cons c cs ih =>
    obtain ⟨c, e⟩ := c
    intro hr p ho hi
    cases c with
    | digit d =>
      simp only [List.map_cons, removable] at hr
      simp only [matchConstraints]
      by_cases hd : d < outs.length
      · rw [if_pos hd] at hr
        simp only [List.getElem?_eq_getElem hd, if_pos hr.1]
        have hl : (ins.eraseIdx d).length = ins.length - 1 := by
          rw [List.length_eraseIdx, if_pos hr.1]
        refine ih ?_ (fun o h' => ?_) (fun i h' => hi i (List.eraseIdx_subset h'))
        · rw [hl, List.length_set]
          exact hr.2
        · rcases List.mem_or_eq_of_mem_set h' with h' | rfl
          · exact ho o h'
          · exact ho outs[d] (List.getElem_mem hd)
      · rw [if_neg hd] at hr
        simp only [List.getElem?_eq_none (Nat.le_of_not_lt hd)]
        exact ih hr ho hi
    | _ =>
      simp only [List.map_cons, removable] at hr
      simp only [matchConstraints]
      exact ih hr ho hi

theorem reg_ok (hE : E.Lawful) (r : RegConstraint) : toksOk E r.toks = true := by
  cases r with
  | digit n => rfl
  | _ => exact toksOk_fixed hE (by decide +kernel)

theorem dir_ok (hE : E.Lawful) (d : Dir) : toksOk E d.toks = true := by
  cases d <;> exact toksOk_fixed hE (by decide +kernel)

theorem asm_ok (hC : CalmCtx C) (hE : C.env.Lawful) (hL : L.argNames = ps) (hp : NamesOk C.env ps) {a : Asm}
    (h : CalmAsm C.env ps a) (hw : a.All (WideNode C)) : toksOk C.env (a.toks ⟨C, L, m⟩) = true := by
  have h1 := prefix_ok hE hC.trait
  obtain ⟨outs, ins, hm, ho, hi⟩ := match_ok h.2.2 (p := fun e => CalmExpr C.env ps e ∧ e.All (WideNode C))
    (fun o h' => ⟨h.1 o h', hw.1 o h'⟩) (fun i h' => ⟨h.2.1 i h', hw.2 i h'⟩)
  simp only [Asm.toks, hm]
  have ho' : toksOk C.env (commaToks (outs.map fun (d, r, e) => d.toks ++ q!"(" ++ r.toks ++ q!")" ++ e.toks ⟨C, L, m⟩)) = true := by
    refine toksOk_comma hE fun x hx => ?_
    obtain ⟨⟨d, r, e⟩, hd, rfl⟩ := List.mem_map.1 hx
    have h2 := expr_ok (m := m) hC hE hL hp e (ho _ hd).1 (ho _ hd).2
    have h3 := reg_ok hE r
    have h4 := dir_ok hE d
    toks_ok hE
  have hi' : toksOk C.env (commaToks (ins.map fun (r, e) => q!"in (" ++ r.toks ++ q!")" ++ e.toks ⟨C, L, m⟩)) = true := by
    refine toksOk_comma hE fun x hx => ?_
    obtain ⟨⟨r, e⟩, hd, rfl⟩ := List.mem_map.1 hx
    have h2 := expr_ok (m := m) hC hE hL hp e (hi _ hd).1 (hi _ hd).2
    have h3 := reg_ok hE r
    toks_ok hE
  have ht : toksOk C.env (commaToks (a.template.map fun t => [.str t])) = true := by
    refine toksOk_comma hE fun x hx => ?_
    obtain ⟨s, _, rfl⟩ := List.mem_map.1 hx
    rfl
  have hc : ∀ cl : List Str, toksOk C.env (commaToks (cl.map fun c => q!"out (" ++ [.str c] ++ q!") _")) = true := by
    intro cl
    refine toksOk_comma hE fun x hx => ?_
    obtain ⟨s, _, rfl⟩ := List.mem_map.1 hx
    exact toksOk_append (toksOk_append (toksOk_fixed hE (by decide +kernel)) rfl) (toksOk_fixed hE (by decide +kernel))
  have hg : toksOk C.env (if a.isGlobal then q!"global_asm !" else q!"asm !") = true := by
    split <;> exact toksOk_fixed hE (by decide +kernel)
  have hb : ∀ b : Bool, toksOk C.env (if b then [] else q!"clobber_abi (" ++ [.str c!"C"] ++ q!") ,") = true := by
    intro b
    split
    · rfl
    · exact toksOk_append (toksOk_append (toksOk_fixed hE (by decide +kernel)) rfl) (toksOk_fixed hE (by decide +kernel))
  have hopt : ∀ opts : List (List RTok), (∀ x ∈ opts, toksOk C.env x = true) →
      toksOk C.env (if opts.isEmpty then [] else q!"options (" ++ sepToks q!"," opts ++ q!") ,") = true := by
    intro opts hx
    have := toksOk_sep (sep := q!",") rfl hx
    split
    · rfl
    · toks_ok hE
  refine toksOk_append (toksOk_append (toksOk_append (toksOk_append (toksOk_append (toksOk_append (toksOk_append (toksOk_append
    (toksOk_append (toksOk_append h1 (toksOk_fixed hE (by decide +kernel))) hg) rfl) ht) ho') hi') (hc _)) (hb _)) (hopt _ ?_)) rfl
  intro x hx
  have h2 : x = q!"att_syntax" ∨ x = q!"nomem" ∨ x = q!"preserves_flags" := by
    rcases List.mem_append.1 hx with hx | hx
    · split at hx
      · exact .inl (by simpa using hx)
      · cases hx
    · split at hx
      · cases hx
      · rcases List.mem_append.1 hx with hx | hx
        · split at hx
          · cases hx
          · exact .inr (.inl (by simpa using hx))
        · split at hx
          · cases hx
          · exact .inr (.inr (by simpa using hx))
  rcases h2 with rfl | rfl | rfl <;> exact toksOk_fixed hE (by decide +kernel)

theorem fnDecl_ok (hC : CalmCtx C) (hE : C.env.Lawful) (hL : L.argNames = ps) (hp : NamesOk C.env ps) {d : FunctionDecl}
    (h : CalmStmt C.env ps (.fnDecl d)) : toksOk C.env (d.toks ⟨C, L, m⟩) = true := by
  have h1 := name_ok (m := m) hC hE hL hp h.2.1
  have h2 := ty_ok (m := m) hC hE hL hp h.1
  have h3 : toksOk C.env (sepToks q!"," (d.args.map fun (t, n) => n.toks ⟨C, L, m⟩ ++ q!":" ++ t.toks ⟨C, L, m⟩)) = true := by
    refine toksOk_sep rfl fun x hx => ?_
    obtain ⟨⟨t, n⟩, ha, rfl⟩ := List.mem_map.1 hx
    have h4 := name_ok (m := m) hC hE hL hp (h.2.2 _ ha).2
    have h5 := ty_ok (m := m) hC hE hL hp (h.2.2 _ ha).1
    toks_ok hE
  unfold FunctionDecl.toks
  toks_ok hE

theorem ite_ok {P : PCtx} (hE : E.Lawful) {c : Expr} {t f : List Stmt} (h1 : toksOk E (c.toks P) = true)
    (h2 : toksOk E (Stmt.toksL P t).flatten = true) (h3 : toksOk E (sepToks q!";" (Stmt.toksL P f)) = true) :
    toksOk E (Stmt.toks P (.ite c t f)) = true := by
  cases f with
  | nil =>
    rw [Stmt.toks.eq_def]
    simp only
    toks_ok hE
  | cons a f =>
    rw [Stmt.toks.eq_def]
    simp only
    toks_ok hE

mutual
theorem stmt_ok (hC : CalmCtx C) (hE : C.env.Lawful) (hL : L.argNames = ps) (hp : NamesOk C.env ps) : ∀ s : Stmt,
    CalmStmt C.env ps s → s.All (WideNode C) → toksOk C.env (s.toks ⟨C, L, m⟩) = true
  | .asm a, h, hw => by
    simp only [Stmt.toks]
    exact toksOk_append (asm_ok hC hE hL hp h hw) rfl
  | .expr e, h, hw => by
    simp only [Stmt.toks]
    exact toksOk_append (expr_ok hC hE hL hp e h hw) rfl
  | .fnDecl d, h, _ => by
    simp only [Stmt.toks]
    exact fnDecl_ok hC hE hL hp h
  | .varDecl d, h, hw => by
    have h1 := name_ok (m := m) hC hE hL hp h.2.1
    have h2 := ty_ok (m := m) hC hE hL hp h.1
    have h3 := expr_ok (m := m) hC hE hL hp d.rhs h.2.2 hw
    simp only [Stmt.toks, VarDecl.toks]
    have h4 : toksOk C.env (if d.isStatic then q!"static mut" else q!"let mut") = true := by
      split <;> exact toksOk_fixed hE (by decide +kernel)
    toks_ok hE
  | .block ss, h, hw => by
    have h1 := toksOk_flatten (stmts_ok hC hE hL hp ss h hw)
    rw [Stmt.toks]
    toks_ok hE
  | .ite c t f, h, hw => by
    have h1 := expr_ok (m := m) hC hE hL hp c h.1 hw.1
    have h2 := toksOk_flatten (stmts_ok hC hE hL hp t h.2.1 hw.2.1)
    have h3 := toksOk_sep (sep := q!";") rfl (stmts_ok hC hE hL hp f h.2.2 hw.2.2)
    exact ite_ok hE h1 h2 h3
  | .doWhile b c, h, hw => by
    have h1 := toksOk_flatten (stmts_ok hC hE hL hp b h.1 hw.1)
    have h2 := expr_ok (m := m) hC hE hL hp c h.2 hw.2
    rw [Stmt.toks]
    toks_ok hE
theorem stmts_ok (hC : CalmCtx C) (hE : C.env.Lawful) (hL : L.argNames = ps) (hp : NamesOk C.env ps) : ∀ ss : List Stmt,
    CalmStmts C.env ps ss → Stmt.AllL (WideNode C) ss → ∀ x ∈ Stmt.toksL ⟨C, L, m⟩ ss, toksOk C.env x = true
  | [], _, _ => by simp [Stmt.toksL]
  | s :: ss, h, hw => by
    intro x hx
    simp only [Stmt.toksL] at hx
    rcases List.mem_cons.1 hx with rfl | hx
    · exact stmt_ok hC hE hL hp s h.1 hw.1
    · exact stmts_ok hC hE hL hp ss h.2 hw.2 x hx
end

theorem macroBody_ok (hC : CalmCtx C) (hE : C.env.Lawful) (hL : L.argNames = ps) (hp : NamesOk C.env ps) {b : MacroBody}
    (h : CalmBody C.env ps b) (hw : b.All (WideNode C)) : toksOk C.env (b.toks ⟨C, L, m⟩) = true := by
  cases b with
  | stmt s => exact stmt_ok hC hE hL hp s h hw
  | expr e => exact expr_ok hC hE hL hp e h hw

/-! ## `generate` -/

theorem calm_generate_var (hC : CalmCtx C) (hE : C.env.Lawful) {v : VarMacro} (h : CalmBody C.env [] v.body) (n : Nat) :
    v.generate n C ≠ .error .panic := by
  have hwc : Word C.env c!"wchar_t" := asciiWord_word hE (by decide +kernel)
  have hp : NamesOk C.env [] := by simp [NamesOk]
  unfold VarMacro.generate
  split
  · simp
  · rename_i e he
    rw [he] at h
    have h1 := calm_finish (L := varLoc C) (ps := []) hC hwc n e LState.init h ⟨rfl, by simp [LState.init]⟩
    have h2 := Expr.finish_inv (NodeInv.wide C (varLoc C)) n e LState.init
    generalize e.finish C (varLoc C) n LState.init = R at *
    rcases R with ⟨x, st, r | t⟩
    · simpa using h1.noPanic
    · have hw := h2.2 t rfl
      have hx : CalmExpr C.env [] x := h1.tree
      simp only at hw ⊢
      have ht : ∀ m, toksOk C.env ((t.map (·.toks ⟨C, varLoc C, m⟩)).getD []) = true := by
        intro m
        cases t with
        | none => rfl
        | some t => exact ty_ok (ps := []) hC hE rfl hp (h1.ty _ rfl t rfl)
      have key : ∀ out : List RTok × Option (List RTok), toksOk C.env out.1 = true → toksOk C.env (out.2.getD []) = true →
          (if (!(toksOk C.env out.1 && toksOk C.env (out.2.getD []))) = true then Except.error CgFail.panic
          else if st.exportAsMacro = true then Except.error (CgFail.err .nonConstantVarMacro)
          else Except.ok out) ≠ (.error .panic : CgRes (List RTok × Option (List RTok))) := by
        intro out ha hb
        rw [ha, hb]
        simp only [Bool.and_self, Bool.not_true, Bool.false_eq_true, if_false]
        split <;> simp
      apply key
      · split
        · exact (lit_string_ok (ps := []) (m := st.exportAsMacro) hC hE rfl hp (fun ws hs => hw ws (by rw [hs])) true).2
        · exact expr_ok hC hE rfl hp _ hx hw
      · split
        · exact (lit_string_ok (ps := []) (m := st.exportAsMacro) hC hE rfl hp (fun ws hs => hw ws (by rw [hs])) true).1
        · exact ht _

theorem calm_argTypes (hC : CalmCtx C) {name : Str} : ∀ {as : List Str} {k : Nat}, argTypes C name as ≠ .error .panic ∧
    ∀ ts, argTypes C name as = .ok ts → ts.length = as.length ∧ ∀ a ∈ ts, CalmArg C.env k a
  | [], _ => ⟨by simp [argTypes], fun ts h => by cases h; exact ⟨rfl, by simp⟩⟩
  | a :: as, k => by
    have ih := calm_argTypes hC (name := name) (as := as) (k := k)
    have step : ∀ t : ArgTy, CalmArg C.env k t → ∀ R : CgRes (List ArgTy),
        R = (match argTypes C name as with | .error e => .error e | .ok ts => .ok (t :: ts)) →
        R ≠ .error .panic ∧ ∀ ts, R = .ok ts → ts.length = (a :: as).length ∧ ∀ b ∈ ts, CalmArg C.env k b := by
      rintro t ht R rfl
      generalize argTypes C name as = R at *
      rcases R with e | ts
      · exact ⟨by simpa using ih.1, by simp⟩
      · refine ⟨by simp, fun us hu => ?_⟩
        cases hu
        obtain ⟨h3, h4⟩ := ih.2 ts rfl
        refine ⟨by simp [h3], fun b hb => ?_⟩
        rcases List.mem_cons.1 hb with rfl | hb
        · exact ht
        · exact h4 b hb
    simp only [argTypes]
    cases ht : C.macroArgTy name a with
    | none => exact step .unknown trivial _ rfl
    | some t =>
      have hf := calm_fromRust (ffi := C.ffiPrefix) (n := k) (hC.arg _ _ _ ht)
      simp only
      generalize Ty.fromRust C.ffiPrefix t = R at *
      rcases R with e | u
      · exact ⟨by simpa using hf.2, by simp⟩
      · exact step (.known u) (hf.1 u rfl) _ rfl

theorem namesOk_of_calm {E : Env} (h : CalmParams E ps) : NamesOk E ps := by
  rcases h with h | ⟨named, rfl, h⟩
  · exact fun s hs => .inr (h s hs)
  · intro s hs
    rcases List.mem_append.1 hs with hs | hs
    · exact .inr (h s hs)
    · exact .inl (by simpa using hs)

theorem macroParams_ok (hE : E.Lawful) : ∀ {as : List Str} {ts : List ArgTy}, NamesOk E as → ∀ x ∈ macroParams as ts, toksOk E x = true
  | [], _, _ => by simp [macroParams]
  | _ :: _, [], _ => by simp [macroParams]
  | a :: as, t :: ts, h => by
    intro x hx
    simp only [macroParams] at hx
    rcases List.mem_cons.1 hx with rfl | hx
    · split
      · exact toksOk_fixed hE (by decide +kernel)
      · rename_i hn
        have h1 := word_id ((h a (by simp)).resolve_left hn)
        have h2 : toksOk E [.id t.fragment] = true := by
          cases t with
          | known t => exact toksOk_fixed hE (ts := q!"expr") (by decide +kernel)
          | _ => exact toksOk_fixed hE (by decide +kernel)
        toks_ok hE
    · exact macroParams_ok hE (fun s hs => h s (List.mem_cons_of_mem _ hs)) x hx

theorem fnParams_ok (hC : CalmCtx C) (hE : C.env.Lawful) (hL : L.argNames = ps) (hp : NamesOk C.env ps) :
    ∀ {as : List Str} {ts : List ArgTy}, (∀ s ∈ as, Word C.env s) →
    (∀ t ∈ ts, CalmArg C.env ps.length t) → ts.all ArgTy.isKnown = true → ∀ x ∈ fnParams ⟨C, L, m⟩ as ts, toksOk C.env x = true
  | [], _, _, _, _ => by simp [fnParams]
  | _ :: _, [], _, _, _ => by simp [fnParams]
  | a :: as, t :: ts, h, ht, hk => by
    intro x hx
    simp only [List.all_cons, Bool.and_eq_true] at hk
    cases t with
    | known t =>
      simp only [fnParams] at hx
      rcases List.mem_cons.1 hx with rfl | hx
      · have h1 := word_id (h a (by simp))
        have h2 := ty_ok (m := m) hC hE hL hp (t := t) (ht _ List.mem_cons_self)
        toks_ok hE
      · exact fnParams_ok hC hE hL hp (fun s hs => h s (List.mem_cons_of_mem _ hs)) (fun t h' => ht t (List.mem_cons_of_mem _ h')) hk.2 x hx
    | _ => exact absurd hk.1 (by simp [ArgTy.isKnown])

theorem word_prefixed (hE : E.Lawful) {s : Str} (h : Word E s) : Word E (c!"__cmacro__" ++ s) := by
  have hc : ∀ x ∈ c!"_cmacro__" ++ s, E.xidContinue x = true := by
    intro x hx
    rcases List.mem_append.1 hx with hx | hx
    · have h1 : asciiWord c!"_cmacro__" = true := by decide +kernel
      simp only [List.mem_cons, List.not_mem_nil, or_false] at hx
      have : x.toNat < 128 ∧ (x.isAlphanum || x == '_') = true := by
        rcases hx with rfl | rfl | rfl | rfl | rfl | rfl | rfl | rfl | rfl <;> decide +kernel
      rw [hE.contAscii x this.1]
      exact this.2
    · cases s with
      | nil => cases hx
      | cons c cs =>
        rcases List.mem_cons.1 hx with rfl | hx
        · rcases h.1 with h' | rfl
          · exact hE.startCont _ h'
          · rw [hE.contAscii '_' (by decide)]; rfl
        · exact h.2 x hx
  exact ⟨.inr rfl, hc⟩

theorem calm_generate_fn (hC : CalmCtx C) (hE : C.env.Lawful) {f : FnMacro} (hn : Word C.env f.name) (hp : CalmParams C.env f.args)
    (h : CalmBody C.env f.args f.body) (n : Nat) : f.generate n C ≠ .error .panic := by
  have hwc : Word C.env c!"wchar_t" := asciiWord_word hE (by decide +kernel)
  have hp' := namesOk_of_calm hp
  have ha := calm_argTypes hC (name := f.name) (as := f.args) (k := f.args.length)
  unfold FnMacro.generate
  generalize argTypes C f.name f.args = R at *
  rcases R with e | tys
  · simpa using ha.1
  · obtain ⟨hl, hk⟩ := ha.2 tys rfl
    simp only
    have h1 := calm_body (st := ⟨tys, false⟩) hC (calm_finish (L := fnLoc f.args) hC hwc n) h ⟨hl, hk⟩
    have h2 := MacroBody.finish_inv (NodeInv.wide C (fnLoc f.args)) (Expr.finish_inv (NodeInv.wide C (fnLoc f.args)) n) f.body ⟨tys, false⟩
    generalize f.body.finish C (Expr.finish C (fnLoc f.args) n) ⟨tys, false⟩ = R at *
    rcases R with ⟨b, st, e | ret⟩
    · simpa using h1.2.2.1
    · simp only
      have hb : ∀ m, toksOk C.env (b.toks ⟨C, fnLoc f.args, m⟩) = true := fun m => macroBody_ok hC hE rfl hp' h1.1 (h2.2 ret rfl)
      have w1 := word_id hn
      have w2 := word_id (word_prefixed hE hn)
      rw [if_pos]
      · simp
      · split
        · have h3 := toksOk_sep (sep := q!",") rfl (macroParams_ok (ts := st.argTypes) hE hp')
          have h4 := hb (st.exportAsMacro || (C.function f.name).isSome || namesVariadic f.args || !st.argTypes.all ArgTy.isKnown || ret.isNone)
          simp only [GenFn.toks]
          toks_ok hE
        · rename_i hx
          simp only [Bool.or_eq_true, not_or, Bool.not_eq_true', Bool.not_eq_true, Bool.not_eq_false] at hx
          obtain ⟨⟨⟨⟨_, _⟩, hv⟩, hkn⟩, hr⟩ := hx
          have hw : ∀ s ∈ f.args, Word C.env s := by
            rcases hp with hp | ⟨named, hnm, _⟩
            · exact hp
            · rw [hnm] at hv
              simp [namesVariadic] at hv
          have h4 := hb (st.exportAsMacro || (C.function f.name).isSome || namesVariadic f.args || !st.argTypes.all ArgTy.isKnown || ret.isNone)
          have h3 := fnParams_ok (ts := st.argTypes) (m := (st.exportAsMacro || (C.function f.name).isSome || namesVariadic f.args || !st.argTypes.all ArgTy.isKnown || ret.isNone))
            hC hE (L := fnLoc f.args) rfl hp' hw h1.2.1.2 hkn
          have h5 : toksOk C.env (sepToks q!"," ((fnParams ⟨C, fnLoc f.args, (st.exportAsMacro || (C.function f.name).isSome || namesVariadic f.args || !st.argTypes.all ArgTy.isKnown || ret.isNone)⟩
              f.args st.argTypes).map (q!"mut" ++ ·))) = true := by
            refine toksOk_sep rfl fun x hx => ?_
            obtain ⟨y, hy, rfl⟩ := List.mem_map.1 hx
            exact toksOk_append (toksOk_fixed hE (by decide +kernel)) (h3 y hy)
          simp only [GenFn.toks]
          generalize hm : (st.exportAsMacro || (C.function f.name).isSome || namesVariadic f.args || !st.argTypes.all ArgTy.isKnown || ret.isNone) = m at *
          have h6 : toksOk C.env (match retToks ⟨C, fnLoc f.args, m⟩ ret with | some t => q!"->" ++ t | none => []) = true := by
            cases ret with
            | none => rfl
            | some t =>
              have := ty_ok (m := m) hC hE (L := fnLoc f.args) rfl hp' (h1.2.2.2 _ rfl t rfl)
              simp only [retToks]
              split
              · rename_i u hu
                split at hu
                · cases hu
                · cases hu
                  exact toksOk_append rfl this
              · rfl
          have h7 : toksOk C.env (if (retToks ⟨C, fnLoc f.args, m⟩ ret).isNone = true then q!";" else []) = true := by
            split <;> rfl
          toks_ok hE

end

end CMacro
