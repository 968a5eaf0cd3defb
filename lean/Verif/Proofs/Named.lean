import Verif.Proofs.Keeps
import Verif.Proofs.Panic2
import Verif.Spec.Calm

/-!
# Names of a parsed body

A body parsed from tokens whose names are identifiers, and whose parameters exist, contains only such names
and parameters.
-/

namespace CMacro
open Parser Spec

/-- What is assumed of the tokens: parameters are below `n`, names are identifiers, and there is a
division, a `#`, or inline assembly only if `quot`, `str`, `asm` say so. -/
structure Kit where
  env : Env
  n : Nat
  quot : Prop
  str : Prop
  asm : Prop

/-- Such a token. -/
def Kit.Tok (K : Kit) : MacroToken → Prop
  | .arg i => i < K.n
  | .ident s => Word K.env s ∧ (s ∈ Spec.asmWords → K.asm)
  | .punct p => (p = c!"/" ∨ p = c!"%" → K.quot) ∧ (p = c!"#" → K.str)
  | _ => True

mutual
/-- The expressions made of such tokens. -/
def Kit.Expr (K : Kit) : CMacro.Expr → Prop
  | .var n => CalmName K.env K.n n
  | .call n as => CalmName K.env K.n n ∧ Kit.Exprs K as
  | .cast t e => CalmTy K.env K.n t ∧ Kit.Expr K e
  | .lit _ => True
  | .stringify n => K.str ∧ CalmName K.env K.n n
  | .concatStr ps => Kit.Exprs K ps
  | .sizeOf t => CalmTy K.env K.n t
  | .un _ e => Kit.Expr K e
  | .bin l op r => (op = .div ∨ op = .rem → K.quot) ∧ Kit.Expr K l ∧ Kit.Expr K r
  | .ternary c t f => Kit.Expr K c ∧ Kit.Expr K t ∧ Kit.Expr K f
/-- The same for lists. -/
def Kit.Exprs (K : Kit) : List CMacro.Expr → Prop
  | [] => True
  | e :: es => Kit.Expr K e ∧ Kit.Exprs K es
end

/-- Inline assembly made of such tokens. -/
def Kit.Asm (K : Kit) (a : CMacro.Asm) : Prop :=
  K.asm ∧ (∀ o ∈ a.outputs, K.Expr o.2.2) ∧ ∀ o ∈ a.inputs, K.Expr o.2

mutual
/-- The statements made of such tokens. -/
def Kit.Stmt (K : Kit) : CMacro.Stmt → Prop
  | .asm a => K.Asm a
  | .expr e => K.Expr e
  | .fnDecl d => CalmTy K.env K.n d.retTy ∧ CalmName K.env K.n d.name ∧
      ∀ a ∈ d.args, CalmTy K.env K.n a.1 ∧ CalmName K.env K.n a.2
  | .varDecl d => CalmTy K.env K.n d.ty ∧ CalmName K.env K.n d.name ∧ K.Expr d.rhs
  | .block ss => Kit.Stmts K ss
  | .ite c t f => K.Expr c ∧ Kit.Stmts K t ∧ Kit.Stmts K f
  | .doWhile b c => Kit.Stmts K b ∧ K.Expr c
/-- The same for lists. -/
def Kit.Stmts (K : Kit) : List CMacro.Stmt → Prop
  | [] => True
  | s :: ss => Kit.Stmt K s ∧ Kit.Stmts K ss
end

/-- The bodies made of such tokens. -/
def Kit.Body (K : Kit) : MacroBody → Prop
  | .stmt s => K.Stmt s
  | .expr e => K.Expr e

/-- All tokens are such. -/
def Kit.Toks (K : Kit) (i : List MacroToken) : Prop := ∀ t ∈ i, K.Tok t

/-- From such tokens `p` makes a result in `Q`, and leaves such tokens. -/
def Makes (K : Kit) {α : Type} (p : TParser α) (Q : α → Prop) : Prop :=
  ∀ i a r, K.Toks i → p i = some (a, r) → Q a ∧ K.Toks r

namespace Makes
variable {K : Kit} {α β γ : Type}

theorem inv {p : TParser α} {f : α → Option β} {i r : List MacroToken} {b : β} (h : Parser.mapOpt p f i = some (b, r)) :
    ∃ a, p i = some (a, r) ∧ f a = some b := by
  unfold Parser.mapOpt at h
  split at h
  · rename_i ha
    split at h
    · rename_i hf; cases h; exact ⟨_, ha, hf⟩
    · cases h
  · cases h

theorem mono {p : TParser α} {Q Q' : α → Prop} (h : Makes K p Q) (hq : ∀ a, Q a → Q' a) : Makes K p Q' :=
  fun i a r hi ha => ⟨hq a (h i a r hi ha).1, (h i a r hi ha).2⟩

theorem fail {Q : α → Prop} : Makes K (fun _ => none : TParser α) Q := by intro i a r _ h; cases h

theorem map {p : TParser α} {Q : α → Prop} {Q' : β → Prop} {f : α → β} (h : Makes K p Q) (hq : ∀ a, Q a → Q' (f a)) :
    Makes K (Parser.map p f) Q' := by
  intro i b r hi hb
  obtain ⟨a, ha, rfl⟩ := map_inv hb
  exact ⟨hq a (h i a r hi ha).1, (h i a r hi ha).2⟩

theorem mapOpt {p : TParser α} {Q : α → Prop} {Q' : β → Prop} {f : α → Option β} (h : Makes K p Q)
    (hq : ∀ a b, f a = some b → Q a → Q' b) : Makes K (Parser.mapOpt p f) Q' := by
  intro i b r hi hb
  obtain ⟨a, ha, hf⟩ := inv hb
  exact ⟨hq a b hf (h i a r hi ha).1, (h i a r hi ha).2⟩

theorem or {p q : TParser α} {Q : α → Prop} (h : Makes K p Q) (h' : Makes K q Q) : Makes K (Parser.or p q) Q := by
  intro i b r hi hb
  rcases or_inv hb with hb | ⟨-, hb⟩
  · exact h i b r hi hb
  · exact h' i b r hi hb

theorem seq {p : TParser α} {q : TParser β} {Q : α → Prop} {Q' : β → Prop} (h : Makes K p Q) (h' : Makes K q Q') :
    Makes K (Parser.seq p q) fun x => Q x.1 ∧ Q' x.2 := by
  intro i b r hi hb
  obtain ⟨r', h1, h2⟩ := seq_inv hb
  have a1 := h i _ _ hi h1
  have a2 := h' _ _ _ a1.2 h2
  exact ⟨⟨a1.1, a2.1⟩, a2.2⟩

theorem preceded {p : TParser α} {q : TParser β} {Q : α → Prop} {Q' : β → Prop} (h : Makes K p Q) (h' : Makes K q Q') :
    Makes K (Parser.preceded p q) Q' := (h.seq h').map fun _ h => h.2

theorem terminated {p : TParser α} {q : TParser β} {Q : α → Prop} {Q' : β → Prop} (h : Makes K p Q) (h' : Makes K q Q') :
    Makes K (Parser.terminated p q) Q := (h.seq h').map fun _ h => h.1

theorem delimited {p : TParser α} {q : TParser β} {o : TParser γ} {Q : α → Prop} {Q' : β → Prop} {Q'' : γ → Prop}
    (h : Makes K p Q) (h' : Makes K q Q') (h'' : Makes K o Q'') : Makes K (Parser.delimited p q o) Q' :=
  (preceded h h').terminated h''

theorem opt {p : TParser α} {Q : α → Prop} (h : Makes K p Q) : Makes K (Parser.opt p) fun o => ∀ a, o = some a → Q a := by
  intro i b r hi hb
  unfold Parser.opt at hb
  split at hb
  · rename_i ha
    cases hb
    exact ⟨fun a h' => by cases h'; exact (h _ _ _ hi ha).1, (h _ _ _ hi ha).2⟩
  · cases hb
    exact ⟨fun a h' => (by simp at h'), hi⟩

theorem allConsuming {p : TParser α} {Q : α → Prop} (h : Makes K p Q) : Makes K (Parser.allConsuming p) Q := by
  intro i b r hi hb
  unfold Parser.allConsuming at hb
  split at hb
  · rename_i ha; cases hb; exact h _ _ _ hi ha
  · cases hb

theorem many0F {p : TParser α} {Q : α → Prop} (h : Makes K p Q) : ∀ n, Makes K (Parser.many0F p n) fun l => ∀ a ∈ l, Q a
  | 0 => fail
  | n + 1 => by
    intro i b r hi hb
    unfold Parser.many0F at hb
    split at hb
    · cases hb; exact ⟨by simp, hi⟩
    · rename_i ha
      split at hb
      · cases hb
      · split at hb
        · rename_i hm
          cases hb
          have a1 := h _ _ _ hi ha
          have a2 := many0F h n _ _ _ a1.2 hm
          exact ⟨fun x hx => by
            rcases List.mem_cons.1 hx with rfl | hx
            · exact a1.1
            · exact a2.1 x hx, a2.2⟩
        · cases hb

theorem many0 {p : TParser α} {Q : α → Prop} (h : Makes K p Q) : Makes K (Parser.many0 p) fun l => ∀ a ∈ l, Q a :=
  fun i b r hi hb => h.many0F _ i b r hi hb

theorem sepList0 {p : TParser α} {q : TParser β} {Q : α → Prop} {Q' : β → Prop} (h : Makes K q Q') (h' : Makes K p Q) :
    Makes K (Parser.sepList0 q p) fun l => ∀ a ∈ l, Q a := by
  intro i b r hi hb
  unfold Parser.sepList0 at hb
  split at hb
  · cases hb; exact ⟨by simp, hi⟩
  · rename_i ha
    split at hb
    · rename_i hm
      cases hb
      have a1 := h' _ _ _ hi ha
      have a2 := (preceded h h').many0 _ _ _ a1.2 hm
      exact ⟨fun x hx => by
        rcases List.mem_cons.1 hx with rfl | hx
        · exact a1.1
        · exact a2.1 x hx, a2.2⟩
    · cases hb

theorem one {f : MacroToken → Option α} {Q : α → Prop} (h : ∀ t a, K.Tok t → f t = some a → Q a) :
    Makes K (Parser.mapOpt takeOne f) Q := by
  intro i a r hi ha
  cases i with
  | nil => cases ha
  | cons t i =>
    unfold Parser.mapOpt at ha
    simp only [takeOne, satisfy, if_true] at ha
    split at ha
    · rename_i hf
      cases ha
      exact ⟨h t a (hi t List.mem_cons_self) hf, fun x hx => hi x (List.mem_cons_of_mem _ hx)⟩
    · cases ha

theorem of_eats {S : MacroToken → Prop} {p : TParser α} (h : Eats S p) : Makes K p fun _ => True := by
  intro i a r hi ha
  obtain ⟨c, rfl, -⟩ := h _ _ _ ha
  exact ⟨trivial, fun t ht => hi t (List.mem_append_right _ ht)⟩

end Makes

variable {K : Kit} {α β : Type}

/-- Parsers that consume only punctuation, comments and keywords. -/
theorem makes_skip {p : TParser α} (h : Eats (Skips.Skip True) p) : Makes K p fun _ => True := .of_eats h

theorem makes_punct (s : Str) : Makes K (punct s) fun _ => K.Tok (.punct s) := .one fun t a ht h => by
  split at h
  · split at h
    · rename_i e; subst e; exact ht
    · cases h
  · cases h

theorem makes_paren {p : TParser α} {Q : α → Prop} (h : Makes K p Q) : Makes K (parenthesized p) Q :=
  .delimited (makes_skip (by skips)) h (makes_skip (by skips))

/-! ## Names -/

theorem makes_arg : Makes K macroArg (· < K.n) := .one fun t a ht h => by
  split at h
  · cases h; exact ht
  · cases h

theorem makes_id : Makes K macroId (Word K.env) := .one fun t a ht h => by
  split at h
  · cases h; exact ht.1
  · cases h

theorem foldl_digits_lt {s : Str} {k : Nat} (h : k < 2 ^ 64) : (BitVec.ofNat 128 k).toInt = k := by
  rw [BitVec.toInt_eq_toNat_of_msb, BitVec.toNat_ofNat, Nat.mod_eq_of_lt (by omega)]
  rw [BitVec.msb_eq_false_iff_two_mul_lt, BitVec.toNat_ofNat, Nat.mod_eq_of_lt (by omega)]
  omega

theorem unsuffixed_calm {s r : Str} {c : IdentCont} (h : unsuffixedInt s = some (c, r)) : CalmPart K.env K.n c := by
  obtain ⟨v, hv, rfl⟩ := map_inv h
  have : v < 2 ^ 64 := by
    rcases or_inv hv with hv | ⟨-, hv⟩
    · obtain ⟨_, _, rfl⟩ := map_inv hv
      decide
    · obtain ⟨ds, _, hd⟩ := mapOpt_inv hv
      simp only at hd
      split at hd
      · cases hd; assumption
      · cases hd
  refine ⟨rfl, ?_⟩
  simp only
  rw [foldl_digits_lt (s := s) this]
  exact Int.natCast_nonneg _

theorem identParse_word {s r id : Str} (h : identParseStr K.env s = some (id, r)) : Word K.env id := by
  have hsh : Shrinks (mapOpt identChar fun c => if K.env.xidContinue c then some c else none) :=
    shrinks_identChar.mapOpt _
  rcases or_inv h with ha | ⟨-, ha⟩
  · cases s with
    | nil => simp [identPlain] at ha
    | cons c cs =>
      simp only [identPlain] at ha
      split at ha
      · rename_i hc
        simp only [Option.some.injEq, Prod.mk.injEq] at ha
        rw [← ha.1]
        refine ⟨by simpa [isIdentStart] using hc, fun x hx => ?_⟩
        exact (List.all_eq_true.1 (List.all_takeWhile (l := cs) (p := K.env.xidContinue))) x hx
      · simp at ha
  · replace ha := map_inv ha
    obtain ⟨⟨c, cs⟩, ha, rfl⟩ := ha
    replace ha := seq_inv ha
    obtain ⟨r', h1, h2⟩ := ha
    obtain ⟨x, _, hx⟩ := mapOpt_inv h1
    split at hx
    · rename_i hc
      simp only [Option.some.injEq] at hx
      subst hx
      refine ⟨by simpa [isIdentStart] using hc, ?_⟩
      exact many0_mapOpt_all (Q := fun c => K.env.xidContinue c = true) hsh (by
        intro a b hb
        split at hb
        · rename_i h; simp only [Option.some.injEq] at hb; exact hb ▸ h
        · simp at hb) _ _ _ _ (Nat.le_refl _) h2
    · simp at hx

theorem many0F_all {σ α : Type} {p : Parser σ α} {Q : α → Prop} (h : ∀ i a r, p i = some (a, r) → Q a) :
    ∀ n i as r, Parser.many0F p n i = some (as, r) → ∀ a ∈ as, Q a
  | 0, i, as, r, ha => by cases ha
  | n + 1, i, as, r, ha => by
    unfold Parser.many0F at ha
    split at ha
    · cases ha; simp
    · rename_i h1
      split at ha
      · cases ha
      · split at ha
        · rename_i h2
          cases ha
          intro x hx
          rcases List.mem_cons.1 hx with rfl | hx
          · exact h _ _ _ h1
          · exact many0F_all h n _ _ _ h2 x hx
        · cases ha

theorem splitCont_calm {s : Str} {ids : List IdentCont} (h : splitCont K.env s = some ids) : ∀ c ∈ ids, CalmPart K.env K.n c := by
  unfold splitCont at h
  replace h := Option.map_eq_some_iff.1 h
  obtain ⟨⟨cs, r⟩, h, rfl⟩ := h
  have hp : ∀ (i : Str) (a : IdentCont) (r : Str), Parser.or unsuffixedInt (Parser.map (identParseStr K.env) .plain) i = some (a, r) →
      CalmPart K.env K.n a := by
    intro i a r ha
    rcases or_inv ha with ha | ⟨-, ha⟩
    · exact unsuffixed_calm ha
    · obtain ⟨id, hid, rfl⟩ := map_inv ha
      exact identParse_word hid
  unfold many1 at h
  split at h
  · cases h
  · exact many0F_all hp _ _ _ _ h

theorem makes_contPart : Makes K (contPart K.env) fun ids => ∀ c ∈ ids, CalmPart K.env K.n c := by
  refine .or (makes_arg.map fun i hi => ?_) (.or (makes_id.map fun i hi => ?_) (.one fun t a ht h => ?_))
  · intro c hc
    simp only [List.mem_singleton] at hc
    subst hc
    exact hi
  · intro c hc
    simp only [List.mem_singleton] at hc
    subst hc
    exact hi
  · split at h
    · exact splitCont_calm h
    · cases h

theorem calm_push {id : IdentExpr} {ids : List IdentCont} (h : CalmName K.env K.n id) (hi : ∀ c ∈ ids, CalmPart K.env K.n c) :
    CalmName K.env K.n (id.push ids) := by
  cases id with
  | arg i =>
    intro c hc
    rcases List.mem_cons.1 hc with rfl | hc
    · exact h
    · exact hi c hc
  | plain s =>
    intro c hc
    rcases List.mem_cons.1 hc with rfl | hc
    · exact h
    · exact hi c hc
  | concat cs =>
    intro c hc
    rcases List.mem_append.1 hc with hc | hc
    · exact h c hc
    · exact hi c hc

theorem calm_foldl_push : ∀ (parts : List (List IdentCont)) (id : IdentExpr), CalmName K.env K.n id →
    (∀ ids ∈ parts, ∀ c ∈ ids, CalmPart K.env K.n c) → CalmName K.env K.n (parts.foldl IdentExpr.push id)
  | [], _, h, _ => h
  | p :: ps, id, h, hp => calm_foldl_push ps _ (calm_push h (hp p List.mem_cons_self)) fun q hq => hp q (List.mem_cons_of_mem _ hq)

theorem makes_name : Makes K (parseConcatIdent K.env) (CalmName K.env K.n) := by
  intro i a r hi h
  unfold parseConcatIdent at h
  split at h
  · cases h
  · rename_i id r1 h1
    have hp : Makes K (Parser.or (Parser.map macroArg IdentExpr.arg) (Parser.map macroId IdentExpr.plain)) (CalmName K.env K.n) :=
      .or (makes_arg.map fun _ h => h) (makes_id.map fun _ h => h)
    have a1 := hp _ _ _ hi h1
    obtain ⟨parts, h2, rfl⟩ := map_inv h
    have a2 := (Makes.preceded (makes_skip (K := K) (p := Parser.delimited «meta» (punct c!"##") «meta») (by skips)) makes_contPart).many0
      _ _ _ a1.2 h2
    exact ⟨calm_foldl_push parts id a1.1 a2.1, a2.2⟩

/-! ## Literals -/

theorem makes_char : Makes K parseLitChar fun _ => True := by
  unfold parseLitChar
  refine .or (.mapOpt (Q := fun _ => True) (.mono (.seq (makes_skip ?_) (.one (Q := fun _ => True) fun _ _ _ _ => trivial)) fun _ _ => trivial)
    fun _ _ _ _ => trivial) (.one fun _ _ _ _ => trivial)
  unfold charPrefixTok
  skips

theorem makes_string : Makes K parseLitString fun _ => True := makes_skip (eatsS_string trivial)

theorem makes_lit : Makes K parseLit fun _ => True :=
  .or (makes_char.map fun _ _ => trivial) <| .or (makes_string.map fun _ _ => trivial) <|
  .or (.map (.one (Q := fun _ => True) fun _ _ _ _ => trivial) fun _ _ => trivial)
    (.map (.one (Q := fun _ => True) fun _ _ _ _ => trivial) fun _ _ => trivial)

/-! ## Types -/

theorem calm_qualify {t : Ty} {q : Qualifier} (h : CalmTy K.env K.n t) : CalmTy K.env K.n (t.qualify q) := by
  cases t <;> exact h

theorem calm_qualifyOpt {t : Ty} {q : Option Qualifier} (h : CalmTy K.env K.n t) : CalmTy K.env K.n (t.qualifyOpt q) := by
  cases q with
  | none => exact h
  | some q => exact calm_qualify h

theorem makes_constVolatile : Makes K (opt constVolatile) fun _ => True := makes_skip (Eats.opt eatsS_constVolatile)

theorem makes_intTy : Makes K intTy (CalmTy K.env K.n) := by
  have hc := eatsS_constVolatile (A := True)
  have hb : ∀ (b : BuiltInType) q, CalmTy K.env K.n ((Ty.builtIn b).qualifyOpt q) := fun b q => calm_qualifyOpt trivial
  unfold intTy
  refine .or ?_ (.or ?_ ?_)
  · unfold intTyLongLong
    refine .mapOpt (Q := fun _ => True) (makes_skip ?_) fun a b h _ => ?_
    · unfold qualPart optPart intSignedness kwPart; skips
    · split at h
      · cases h; exact hb _ _
      · cases h
  · unfold intTyLength
    refine .mapOpt (Q := fun _ => True) (makes_skip ?_) fun a b h _ => ?_
    · unfold qualPart optPart intSignedness intLength kwPart; skips
    · split at h
      · cases h; exact hb _ _
      · cases h
  · unfold intTyPlain
    refine .mapOpt (Q := fun _ => True) (makes_skip ?_) fun a b h _ => ?_
    · unfold qualPart optPart intSignedness kwPart; skips
    · split at h
      · cases h; exact hb _ _
      · cases h

theorem makes_simpleTy : Makes K simpleTy (CalmTy K.env K.n) := by
  have hv : ∀ {k : Str} (b : BuiltInType), k ∈ Spec.keywords → Makes K (value (Ty.builtIn b) (keyword k)) (CalmTy K.env K.n) :=
    fun b hk => .map (makes_skip (eatsS_keyword hk)) fun _ _ => trivial
  unfold simpleTy
  refine .map (.seq makes_constVolatile (.or (hv _ (by decide)) <| .or (hv _ (by decide)) <| .or (hv _ (by decide)) ?_))
    fun x h => calm_qualifyOpt h.2
  unfold doubleTy
  have hc := eatsS_constVolatile (A := True)
  exact .map (Q := fun _ => True) (makes_skip (by skips)) fun x _ => calm_qualifyOpt trivial

theorem makes_identTy : Makes K (identTy K.env) (CalmTy K.env K.n) := by
  unfold identTy
  exact .map (.seq makes_constVolatile (.seq (Q := fun _ => True) (makes_skip (by skips)) makes_name))
    fun x h => calm_qualifyOpt (t := .ident x.2.2 _) h.2.2

theorem calm_addPtr : ∀ (qs : List (Option Qualifier)) (t : Ty), CalmTy K.env K.n t → CalmTy K.env K.n (qs.foldl Ty.addPtr t)
  | [], _, h => h
  | _ :: qs, t, h => calm_addPtr qs _ (calm_qualifyOpt (t := .ptr t) h)

theorem makes_ty : Makes K (parseTy K.env) (CalmTy K.env K.n) := by
  intro i a r hi h
  unfold parseTy at h
  split at h
  · cases h
  · rename_i t q r1 h1
    obtain ⟨qs, h2, rfl⟩ := map_inv h
    have hb : Makes K (tyBase K.env) (CalmTy K.env K.n) := .or makes_simpleTy (.or makes_intTy makes_identTy)
    have hc := eatsS_constVolatile (A := True)
    have hs : Makes K (many0 (preceded (seq (punct c!"*") «meta») (opt constVolatile))) fun _ => True := makes_skip (by skips)
    have a1 := (hb.seq makes_constVolatile) _ _ _ hi h1
    exact ⟨calm_addPtr _ _ (calm_qualifyOpt a1.1.1), (hs _ _ _ a1.2 h2).2⟩

/-! ## Expressions -/

theorem kit_exprs : ∀ {es : List CMacro.Expr}, Kit.Exprs K es ↔ ∀ e ∈ es, Kit.Expr K e
  | [] => by simp [Kit.Exprs]
  | e :: es => by simp [Kit.Exprs, kit_exprs (es := es)]

theorem kit_pushPart {a e : CMacro.Expr} (h : Kit.Expr K a) (h' : Kit.Expr K e) : Kit.Expr K (a.pushPart e) := by
  cases a with
  | concatStr ps =>
    simp only [Expr.pushPart, Kit.Expr, kit_exprs] at h ⊢
    intro x hx
    rcases List.mem_append.1 hx with hx | hx
    · exact h x hx
    · simp only [List.mem_singleton] at hx; subst hx; exact h'
  | _ => exact ⟨h, h', trivial⟩

theorem kit_foldl_pushPart : ∀ (ps : List CMacro.Expr) (a : CMacro.Expr), Kit.Expr K a → (∀ e ∈ ps, Kit.Expr K e) →
    Kit.Expr K (ps.foldl Expr.pushPart a)
  | [], _, h, _ => h
  | p :: ps, a, h, hp => kit_foldl_pushPart ps _ (kit_pushPart h (hp p List.mem_cons_self)) fun e he => hp e (List.mem_cons_of_mem _ he)

theorem makes_stringify : Makes K parseStringify (Kit.Expr K) := by
  unfold parseStringify
  intro i a r hi h
  replace h := map_inv h
  obtain ⟨x, h, rfl⟩ := h
  have a1 := (Makes.seq (Makes.terminated (makes_punct (K := K) c!"#") (makes_skip (p := «meta») (by skips)))
    (Makes.or (makes_arg.map (Q' := fun e => ∃ n, e = CMacro.Expr.stringify n ∧ CalmName K.env K.n n) fun i h => ⟨.arg i, rfl, h⟩)
      (makes_id.map fun i h => ⟨.plain i, rfl, h⟩))) _ _ _ hi h
  obtain ⟨⟨h1, n, h2, h3⟩, h4⟩ := a1
  refine ⟨?_, h4⟩
  rw [h2]
  exact ⟨h1.2 rfl, h3⟩

theorem makes_concatPart : Makes K (concatPart K.env) (Kit.Expr K) := by
  unfold concatPart
  exact .or (.or (makes_string.map fun _ _ => trivial) makes_stringify) (makes_name.map fun _ h => h)

theorem makes_concatString : Makes K (parseConcatString K.env) (Kit.Expr K) := by
  intro i a r hi h
  unfold parseConcatString at h
  split at h
  · cases h
  · rename_i s r1 h1
    obtain ⟨ps, h2, rfl⟩ := map_inv h
    have a1 := makes_concatPart _ _ _ hi h1
    have a2 := (Makes.preceded (makes_skip (K := K) (p := «meta») (by skips)) makes_concatPart).many0 _ _ _ a1.2 h2
    exact ⟨kit_foldl_pushPart ps s a1.1 a2.1, a2.2⟩

structure MakesRec (K : Kit) (R : Rec) : Prop where
  prec2 : Makes K R.prec2 (Kit.Expr K)
  prec13 : Makes K R.prec13 (Kit.Expr K)
  expr : Makes K R.expr (Kit.Expr K)

/-- Postfix accesses made of such tokens. -/
def Kit.Access (K : Kit) : CMacro.Access → Prop
  | .fn args => Kit.Exprs K args
  | .field name _ => CalmName K.env K.n name
  | .array e => K.Expr e
  | .post _ => True

variable {R : Rec}

theorem makes_factor (h : MakesRec K R) : Makes K (parseFactor K.env R) (Kit.Expr K) :=
  .or (.map (.preceded (makes_skip (eatsS_keyword (by decide))) (makes_paren makes_ty)) fun _ h => h) <|
  .or (makes_char.map fun _ _ => trivial) <| .or makes_concatString <| .or (makes_lit.map fun _ _ => trivial) (makes_paren h.expr)

theorem makes_access (h : MakesRec K R) : Makes K (parseAccess K.env R) K.Access := by
  unfold parseAccess
  refine .preceded (makes_skip (by skips)) <|
    .or (.map (makes_paren (.sepList0 (makes_skip (by skips)) h.expr)) fun _ h => kit_exprs.2 h) <|
    .or (.map (.preceded (makes_skip (by skips)) makes_name) fun _ h => h) <|
    .or (.map (.delimited (makes_skip (by skips)) h.expr (makes_skip (by skips))) fun _ h => h) <|
    .or (.map (.preceded (makes_skip (by skips)) makes_name) fun _ h => h) <|
    .map (Q := fun _ => True) (makes_skip (by skips)) fun _ _ => trivial

theorem kit_access {e e' : CMacro.Expr} {b b' : Bool} {a : CMacro.Access} (h : Expr.access (some (e, b)) a = some (e', b'))
    (he : Kit.Expr K e) (ha : K.Access a) : Kit.Expr K e' := by
  unfold Expr.access at h
  split at h
  · cases h
  · rename_i hx
    cases hx
    split at h
    · split at h
      · cases h
      · cases h; exact he
    · cases h; exact ⟨he, ha⟩
    · split at h
      · cases h
      · cases h
        refine ⟨by simp, ?_, ha⟩
        split <;> exact he
    · split at h
      · cases h
      · cases h; exact ⟨by simp, he, ha⟩
    · cases h

theorem kit_foldl_access : ∀ (as : List CMacro.Access) (e e' : CMacro.Expr) (b b' : Bool),
    as.foldl Expr.access (some (e, b)) = some (e', b') → Kit.Expr K e → (∀ a ∈ as, K.Access a) → Kit.Expr K e'
  | [], e, e', b, b', h, he, _ => by cases h; exact he
  | a :: as, e, e', b, b', h, he, ha => by
    rw [List.foldl_cons] at h
    rcases hx : Expr.access (some (e, b)) a with _ | ⟨e1, b1⟩
    · rw [hx, foldl_access_none] at h; cases h
    · rw [hx] at h
      exact kit_foldl_access as _ _ _ _ h (kit_access hx he (ha a List.mem_cons_self)) fun x hx => ha x (List.mem_cons_of_mem _ hx)

theorem makes_prec1 (h : MakesRec K R) : Makes K (prec1 K.env R) (Kit.Expr K) := by
  intro i a r hi ha
  unfold prec1 at ha
  split at ha
  · cases ha
  · rename_i e r1 h1
    obtain ⟨as, h2, hx⟩ := Makes.inv ha
    rcases hf : as.foldl Expr.access (some (e, false)) with _ | ⟨e', b'⟩
    · rw [hf] at hx; cases hx
    · rw [hf] at hx
      cases hx
      have a1 := makes_factor h _ _ _ hi h1
      have a2 := (makes_access h).many0 _ _ _ a1.2 h2
      exact ⟨kit_foldl_access as _ _ _ _ hf a1.1 a2.1, a2.2⟩

theorem makes_prec2 (h : MakesRec K R) : Makes K (prec2 K.env R) (Kit.Expr K) := by
  unfold prec2 prefixOp
  exact .or (.map (.seq (makes_paren makes_ty) h.prec2) fun _ h => h) <|
    .or (.map (.seq (Q := fun _ => True) (makes_skip (by skips)) h.prec2) fun _ h => h.2) (makes_prec1 h)

/-- A division only where the tokens have one. -/
def Kit.Op (K : Kit) (op : BinOp) : Prop := op = .div ∨ op = .rem → K.quot

theorem kit_foldl_bin : ∀ (l : List (BinOp × CMacro.Expr)) (t : CMacro.Expr), Kit.Expr K t → (∀ x ∈ l, K.Op x.1 ∧ Kit.Expr K x.2) →
    Kit.Expr K (l.foldl (fun lhs (x : BinOp × CMacro.Expr) => .bin lhs x.1 x.2) t)
  | [], _, h, _ => h
  | x :: l, t, h, hl => kit_foldl_bin l _ ⟨(hl x List.mem_cons_self).1, h, (hl x List.mem_cons_self).2⟩ fun y hy => hl y (List.mem_cons_of_mem _ hy)

theorem makes_binLevel {sub : TParser CMacro.Expr} {op : TParser BinOp} (h : Makes K sub (Kit.Expr K)) (h' : Makes K op K.Op) :
    Makes K (binLevel sub op) (Kit.Expr K) := by
  intro i a r hi ha
  unfold binLevel at ha
  split at ha
  · cases ha
  · rename_i t r1 h1
    obtain ⟨l, h2, rfl⟩ := map_inv ha
    have a1 := h _ _ _ hi h1
    have a2 := (Makes.seq (Makes.delimited (makes_skip (p := «meta») (by skips)) h' (makes_skip (p := «meta») (by skips))) h).many0 _ _ _ a1.2 h2
    exact ⟨kit_foldl_bin l t a1.1 a2.1, a2.2⟩

theorem makes_op {op : BinOp} {p : Str} (h : op ≠ .div ∧ op ≠ .rem) : Makes K (value op (punct p)) K.Op :=
  .map (makes_punct p) fun _ _ h' => (h'.elim (fun e => absurd e h.1) fun e => absurd e h.2)

theorem makes_op3 : Makes K op3 K.Op :=
  .or (makes_op (by decide)) <| .or (.map (makes_punct _) fun _ h _ => h.1 (.inl rfl)) (.map (makes_punct _) fun _ h _ => h.1 (.inr rfl))

theorem makes_prec10 (h : MakesRec K R) : Makes K (prec10 K.env R) (Kit.Expr K) := by
  unfold prec10 prec9 prec8 prec7 prec6 prec5 prec4 prec3
  refine makes_binLevel (makes_binLevel (makes_binLevel (makes_binLevel (makes_binLevel (makes_binLevel (makes_binLevel
    (makes_binLevel (makes_prec2 h) makes_op3) ?_) ?_) ?_) ?_) ?_) ?_) ?_
  · exact .or (makes_op (by decide)) (makes_op (by decide))
  · exact .or (makes_op (by decide)) (makes_op (by decide))
  · exact .or (makes_op (by decide)) <| .or (makes_op (by decide)) <| .or (makes_op (by decide)) (makes_op (by decide))
  · exact .or (makes_op (by decide)) (makes_op (by decide))
  · exact makes_op (by decide)
  · exact makes_op (by decide)
  · exact makes_op (by decide)

theorem makes_prec13 (h : MakesRec K R) : Makes K (prec13 K.env R) (Kit.Expr K) := by
  intro i a r hi ha
  unfold prec13 at ha
  split at ha
  · cases ha
  · rename_i c r1 hc
    have a1 := makes_prec10 h _ _ _ hi hc
    split at ha
    · cases ha; exact a1
    · rename_i r2 hd
      obtain ⟨⟨t, f⟩, h2, rfl⟩ := map_inv ha
      have a2 := (makes_skip (K := K) (p := Parser.delimited «meta» (punct c!"?") «meta») (by skips)) _ _ _ a1.2 hd
      have a3 := (h.expr.seq (.preceded (makes_skip (p := Parser.delimited «meta» (punct c!":") «meta») (by skips)) h.prec13)) _ _ _ a2.2 h2
      exact ⟨⟨a1.1, a3.1.1, a3.1.2⟩, a3.2⟩

theorem makes_prec14 (h : MakesRec K R) : Makes K (prec14 K.env R) (Kit.Expr K) := by
  intro i a r hi ha
  unfold prec14 at ha
  split at ha
  · cases ha
  · rename_i t r1 h1
    obtain ⟨l, h2, rfl⟩ := map_inv ha
    have a1 := makes_prec13 h _ _ _ hi h1
    have ho : Makes K op14 K.Op := by
      unfold op14
      repeat (first | exact makes_op (by decide) | refine .or (makes_op (by decide)) ?_)
    have a2 := (Makes.seq (Makes.delimited (makes_skip (p := «meta») (by skips)) ho (makes_skip (p := «meta») (by skips))) h.expr).many0 _ _ _ a1.2 h2
    exact ⟨kit_foldl_bin l t a1.1 a2.1, a2.2⟩

theorem makes_tie : ∀ n, MakesRec K (tie K.env n)
  | 0 => ⟨.fail, .fail, .fail⟩
  | n + 1 => ⟨makes_prec2 (makes_tie n), makes_prec13 (makes_tie n), makes_prec14 (makes_tie n)⟩

theorem makes_expr : Makes K (parseExpr K.env) (Kit.Expr K) := fun i => (makes_tie _).expr i

/-! ## Statements -/

theorem makes_asm : Makes K (parseAsm K.env) K.Asm := by
  intro i a r hi h
  obtain ⟨k, hk, hm⟩ := asm_head h
  have ha : K.asm := (hi _ hm).2 hk
  have hs : ∀ {β : Type} (f : Str → Option β), Makes K (litStringMap f) fun _ => True := fun f =>
    makes_string.mapOpt fun _ _ _ _ => trivial
  have hsep : ∀ p, Makes K (sepBy p) fun _ => True := fun p => makes_skip (by unfold sepBy; skips)
  have hall : Makes K (parseAsm K.env) fun a => (∀ o ∈ a.outputs, K.Expr o.2.2) ∧ ∀ o ∈ a.inputs, K.Expr o.2 := by
    unfold parseAsm
    refine .map (.preceded (makes_skip (by skips)) (makes_paren (.seq
      (.delimited (makes_skip (p := «meta») (by skips)) (hs _) (makes_skip (p := «meta») (by skips)))
      (.seq (.opt (.preceded (hsep _) (.sepList0 (hsep _) (.seq (hs _) (makes_paren makes_expr)))))
        (.seq (.opt (.preceded (hsep _) (.sepList0 (hsep _) (.seq (hs _) (makes_paren makes_expr)))))
          (.opt (.preceded (hsep _) (.sepList0 (hsep _) (hs _)))))))) ) fun x hx => ?_
    obtain ⟨-, ho, hin, -⟩ := hx
    constructor
    · intro o hm
      obtain ⟨y, hy, rfl⟩ := List.mem_map.1 hm
      cases hx : x.2.1 with
      | none => simp [hx] at hy
      | some l => exact (ho l hx y (by simpa [hx] using hy)).2
    · intro o hm
      cases hx : x.2.2.1 with
      | none => simp [hx] at hm
      | some l => exact (hin l hx o (by simpa [hx] using hm)).2
  have := hall i a r hi h
  exact ⟨⟨ha, this.1⟩, this.2⟩

theorem makes_staticTy : Makes K (staticTy K.env) fun x => CalmTy K.env K.n x.2 := by
  intro i x r hi h
  obtain ⟨o, r1, h1, h2⟩ := staticTy_inv h
  have hs : Makes K (opt (keyword c!"static")) fun _ => True := makes_skip (by skips)
  exact makes_ty _ _ _ (hs _ _ _ hi h1).2 h2

theorem makes_functionDecl : Makes K (parseFunctionDecl K.env) fun f => K.Stmt (.fnDecl f) := by
  unfold parseFunctionDecl
  refine .map (.seq makes_staticTy (.seq makes_name (makes_paren
    (.sepList0 (makes_skip (p := Parser.seq «meta» (punct c!",")) (by skips)) (.seq makes_ty makes_name))))) fun x h => ?_
  simp only [Kit.Stmt]
  exact h

theorem makes_varDecl : Makes K (parseVarDecl K.env) fun d => K.Stmt (.varDecl d) := by
  unfold parseVarDecl
  refine .map (.seq makes_staticTy (.seq makes_name (.seq (makes_punct _) makes_expr))) fun x h => ?_
  simp only [Kit.Stmt]
  exact ⟨h.1, h.2.1, h.2.2.2⟩

theorem kit_stmts : ∀ {ss : List CMacro.Stmt}, Kit.Stmts K ss ↔ ∀ s ∈ ss, Kit.Stmt K s
  | [] => by simp [Kit.Stmts]
  | s :: ss => by simp [Kit.Stmts, kit_stmts (ss := ss)]

theorem kit_toBlock {s : CMacro.Stmt} (h : Kit.Stmt K s) : Kit.Stmts K s.toBlock := by
  cases s with
  | block ss => simpa only [Kit.Stmt, Stmt.toBlock] using h
  | _ => exact ⟨h, trivial⟩

theorem makes_single : ∀ n, Makes K (parseSingle K.env n) (Kit.Stmt K)
  | 0 => .fail
  | n + 1 => by
    have hb : Makes K (Parser.map (parseSingle K.env n) Stmt.toBlock) (Kit.Stmts K) := (makes_single n).map fun _ h => kit_toBlock h
    have hs : Makes K semicolonOrEof fun _ => True := makes_skip (by unfold semicolonOrEof; skips)
    unfold parseSingle
    refine .or (.map (makes_asm.terminated hs) fun _ h => by simpa only [Kit.Stmt] using h) <|
      .or (.map (.seq (.preceded (makes_skip (p := Parser.terminated (keyword c!"if") «meta») (by skips)) (makes_paren makes_expr)) (.seq hb
        (.opt (.preceded (makes_skip (p := Parser.delimited «meta» (keyword c!"else") «meta») (by skips)) hb)))) fun x h => ?_) <|
      .or (.map (.preceded (makes_skip (p := Parser.terminated (keyword c!"do") «meta») (by skips)) (.seq hb
        (.preceded (makes_skip (eatsS_keyword (by decide))) (makes_paren makes_expr))))
        fun _ h => by simpa only [Kit.Stmt] using h) <|
      .or (.map (.delimited (makes_skip (p := Parser.terminated (punct c!"{") «meta») (by skips))
        (.many0 (.preceded (makes_skip (p := «meta») (by skips)) (makes_single n))) (makes_skip (by skips)))
        fun _ h => by simpa only [Kit.Stmt] using kit_stmts.2 h) <|
      .or (.map (makes_functionDecl.terminated hs) fun _ h => h) <|
      .or (.map (makes_varDecl.terminated hs) fun _ h => h) (.map (makes_expr.terminated hs) fun _ h => by simpa only [Kit.Stmt] using h)
    simp only [Kit.Stmt]
    refine ⟨h.1, h.2.1, ?_⟩
    cases hx : x.2.2 with
    | none => simp [Kit.Stmts]
    | some f => exact h.2.2 f hx

theorem makes_stmt : Makes K (parseStmt K.env) (Kit.Stmt K) := by
  intro i a r hi h
  unfold parseStmt at h
  have hk : Makes K (Parser.map (many0 (delimited «meta» (parseSingle K.env (i.length + 1)) «meta»)) (fun
    | [s] => s
    | ss => Stmt.block ss)) (Kit.Stmt K) :=
    .map (Makes.delimited (makes_skip (p := «meta») (by skips)) (makes_single _) (makes_skip (p := «meta») (by skips))).many0 fun ss h => by
      split
      · exact h _ (by simp)
      · simpa only [Kit.Stmt] using kit_stmts.2 h
  exact hk i a r hi h

theorem makes_body : Makes K (MacroBody.parse K.env) K.Body := by
  intro i a r hi h
  unfold MacroBody.parse at h
  split at h
  · cases h
  · cases h
    exact ⟨by simp [Kit.Body, Kit.Stmt, Kit.Stmts], by simp [Kit.Toks]⟩
  · rename_i _ hm
    have hp : Makes K (Parser.or (allConsuming (Parser.map (parseExpr K.env) MacroBody.expr)) (allConsuming (Parser.map (parseStmt K.env) .stmt)))
        K.Body := .or (Makes.allConsuming (makes_expr.map fun _ h => h)) (Makes.allConsuming (makes_stmt.map fun _ h => h))
    exact hp _ _ _ ((makes_skip (K := K) (p := «meta») (by skips)) _ _ _ hi hm).2 h

end CMacro
