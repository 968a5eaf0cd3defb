import Verif.Proofs.CalmPrint
import Verif.Proofs.Named
import Verif.Props.Pipeline

/-!
# What a macro obtained from an expansion looks like

The names in an expanded body are identifiers, and so are the names of its parameters; the parsed body
contains only these names and existing parameters.
-/

namespace CMacro
open Parser Spec

variable {E : Env} {ms : MacroSet}

/-! ## Expansion makes identifiers only -/

/-- Names are identifiers. -/
def SoundTok (E : Env) : Token → Prop
  | .ident s => Word E s
  | .identCont s => ∀ c ∈ s, E.xidContinue c = true
  | .lit (.int _) s => ∀ c ∈ s, c.isAlphanum = true
  | _ => True

/-- The same, painted or not. -/
def Sound (E : Env) (t : Token) : Prop := SoundTok E t.strip

theorem sound_of {t : Token} (hn : ∀ x, t ≠ .nonRepl x) (h : SoundTok E t) : Sound E t := by
  unfold Sound
  cases t with
  | nonRepl x => exact absurd rfl (hn x)
  | _ => exact h

theorem sound_lit {s : Str} {l : Lit} (h : Lit.tryFrom s = some l) : SoundTok E (.lit l s) := by
  replace h := litTryFrom_inv h
  rcases h with ⟨c, rfl, h⟩ | ⟨c, rfl, h⟩ | ⟨c, rfl, h⟩ | ⟨c, rfl, h⟩
  · trivial
  · trivial
  · trivial
  · exact (litInt_text h).2

theorem sound_fromStr (s : Str) : Sound E (Token.fromStr E s) := by
  refine sound_of (fromStr_ne_nonRepl E s) ?_
  unfold Token.fromStr
  split
  · trivial
  · split
    · rename_i h; exact identTryFrom_isIdent h
    · split
      · rename_i h; exact sound_lit h
      · split
        · rename_i h; exact identContTryFrom_all h
        · split
          · trivial
          · split <;> trivial

theorem sound_tokenizeOne (names : List Token) (s : Str) : Sound E (tokenizeOne E names s) := by
  unfold tokenizeOne
  split
  · trivial
  · exact sound_fromStr s

theorem sound_reclassify (s : Str) : Sound E (reclassify E s) := by
  unfold reclassify
  split
  · rename_i h; exact identTryFrom_isIdent h
  · split
    · rename_i h; exact sound_lit h
    · split
      · rename_i h; exact identContTryFrom_all h
      · trivial

theorem sound_strip {t : Token} (h : SoundTok E t) (hn : ∀ x, t ≠ .nonRepl x) : Sound E t := sound_of hn h

theorem sound_concat (L : E.Lawful) {a b : Token} (ha : Sound E a) (hb : Sound E b) :
    (a.concat E b).Sat (Sound E) (fun _ => True) := by
  unfold Sound at ha hb
  have hsa := strip_ne_nonRepl a
  have hsb := strip_ne_nonRepl b
  unfold Token.concat
  generalize a.strip = a at *
  generalize b.strip = b at *
  have hlit : ∀ {s : Str}, Res.Sat (Sound E) (fun _ => True) (match Lit.tryFrom s with
        | some lit => .ok (.lit lit s)
        | none => .error (.err .invalidConcat)) := by
    intro s
    split
    · rename_i h; exact sound_lit h
    · trivial
  unfold concatCore
  split
  · exact sound_of hsb hb
  · exact sound_of hsa ha
  · exact isIdent_append L ha (isIdent_cont L hb)
  · exact isIdent_append L ha hb
  · split <;> trivial
  · trivial
  · trivial
  · unfold concatPunctLit
    split
    · split
      · trivial
      · trivial
      · exact hlit
      · exact hlit
    · trivial
  · rename_i l lt r
    cases lt with
    | string x =>
      cases x <;> simp only [concatIdentLit] <;> (try split) <;> try trivial
      split
      · rename_i h; exact sound_lit h
      · trivial
    | char x =>
      cases x <;> simp only [concatIdentLit] <;> (try split) <;> try trivial
      split
      · rename_i h; exact sound_lit h
      · trivial
    | int x => exact isIdent_append L ha (fun c hc => cont_alphanum L (hb c hc))
    | float x =>
      simp only [concatIdentLit]
      split
      · split
        · rename_i h; exact identTryFrom_isIdent h
        · trivial
      · trivial
  · unfold concatGeneral
    split
    · exact sound_reclassify _
    · split <;> trivial

theorem sound_stepInv (L : E.Lawful) (ms : MacroSet) : StepInv E ms (Sound E) (fun _ => True) where
  diverge := trivial
  concatBegin := trivial
  concatEnd := trivial
  nonVariadic := trivial
  arity := by intros; trivial
  nonUnique := fun _ => trivial
  strNonArg := trivial
  argName := trivial
  paint := fun _ h => h
  concat := fun _ _ _ ha hb _ => sound_concat L ha hb
  placemarker := trivial
  comma := trivial
  stringify := fun nested arg h ha => stringify_all h (fun _ _ => trivial) nested arg ha
  fnBody := by
    intro id as b names _ _ t ht
    obtain ⟨s, _, rfl⟩ := List.mem_map.1 ht
    exact .inr (sound_tokenizeOne names s)
  varBody := by
    intro id b _ t ht
    obtain ⟨s, _, rfl⟩ := List.mem_map.1 ht
    exact .inr (sound_tokenizeOne [] s)
  select := fun _ _ _ _ _ _ _ _ _ _ _ _ _ => sat_true

/-- Names after `detokenize` come from names. -/
theorem detokenize_word {k : Nat} : ∀ {ts : List Token} {toks : List MacroToken} {s : Str},
    AllTok (Sound E) ts → detokenize k ts = .ok toks → MacroToken.ident s ∈ toks → Word E s := by
  intro ts
  induction ts with
  | nil => intro toks s _ h hm; simp [detokenize] at h; subst h; simp at hm
  | cons t ts ih =>
    intro toks s hs h hm
    simp only [detokenize] at h
    rw [detokenize_strip] at h
    cases h1 : t.strip.detokenize k with
    | error e => rw [h1] at h; simp [bind, Except.bind] at h
    | ok m =>
      cases h2 : detokenize k ts with
      | error e => rw [h1, h2] at h; simp [bind, Except.bind] at h
      | ok ms =>
        rw [h1, h2] at h
        simp only [bind, Except.bind, Except.ok.injEq] at h
        subst h
        rcases List.mem_append.1 hm with hm | hm
        · simp only [Option.mem_toList] at hm
          subst hm
          have hst : SoundTok E t.strip := hs t List.mem_cons_self
          have hnr := strip_ne_nonRepl t
          cases hs' : t.strip with
          | ident id =>
            rw [hs'] at h1 hst
            simp only [Token.detokenize, Except.ok.injEq, Option.some.injEq, MacroToken.ident.injEq] at h1
            subst h1
            exact hst
          | nonRepl x => exact absurd hs' (hnr x)
          | varArgs =>
            rw [hs'] at h1
            simp only [Token.detokenize] at h1
            split at h1 <;> simp at h1
          | _ => rw [hs'] at h1; simp [Token.detokenize] at h1
        · exact ih (fun x hx => hs x (List.mem_cons_of_mem _ hx)) h2 hm

/-- The names in the result of `expand_var_macro` are identifiers. -/
theorem expandVar_word (L : E.Lawful) {k : Nat} {name : Str} {toks : List MacroToken}
    (hx : ms.expandVar E k name = .ok toks) {s : Str} (hs : MacroToken.ident s ∈ toks) : Word E s := by
  unfold MacroSet.expandVar at hx
  split at hx
  · simp at hx
  · rename_i b hb
    split at hx
    · simp at hx
    · rename_i ts hts
      have H := sound_stepInv L ms
      have := expandVarMacroBody_sat H (rec := expandMacroBody E ms k)
        (fun S ts h' => expandMacroBody_sat H k S ts h') (names := []) (name := name) (b := b) (by
          intro t ht
          obtain ⟨s, _, rfl⟩ := List.mem_map.1 ht
          exact .inr (sound_tokenizeOne [] s))
      rw [hts] at this
      exact detokenize_word this hx hs

/-- The parameter list as it reaches `FnMacro::parse`. -/
theorem tokenizeArgNamesGo_shape : ∀ (ss : List Str) (acc names : List Token),
    tokenizeArgNamesGo E false acc ss = .ok names →
    ∃ (ts : List Token) (xs tail : List MacroToken) (dots : List Str),
      names = acc ++ ts ∧ detokenize 0 ts = .ok (xs ++ tail) ∧ IdsAndComments xs ∧
      (tail = [] ∧ dots = [] ∨ (∃ cs, Comments cs ∧ tail = .punct c!"..." :: cs) ∧ dots = [c!"..."]) ∧
      ∀ id ∈ idsOf xs, Word E id := by
  intro ss
  induction ss with
  | nil =>
    intro acc names h
    refine ⟨[], [], [], [], ?_, rfl, idsAndComments_nil, .inl ⟨rfl, rfl⟩, fun _ h => by cases h⟩
    simpa [tokenizeArgNamesGo, eq_comm] using h
  | cons s ss ih =>
    intro acc names h
    unfold tokenizeArgNamesGo at h
    split at h
    · rename_i id hid
      simp only [Bool.false_eq_true, if_false] at h
      split at h
      · simp at h
      · obtain ⟨ts, xs, tail, dots, h1, h2, h3, h4, h5⟩ := ih _ _ h
        refine ⟨.ident id :: ts, .ident id :: xs, tail, dots, by simp [h1], ?_, ?_, h4, ?_⟩
        · simp [detokenize, Token.detokenize, h2, bind, Except.bind]
        · intro t ht
          rcases List.mem_cons.1 ht with rfl | ht
          · exact .inl ⟨id, rfl⟩
          · exact h3 t ht
        · intro x hx
          rcases List.mem_cons.1 hx with rfl | hx
          · exact identTryFrom_isIdent (fromStr_ident.1 hid).2
          · exact h5 x hx
    · rename_i p hp
      split at h
      · rename_i hd
        simp only [Bool.false_eq_true, if_false] at h
        subst hd
        obtain ⟨cs, hcs⟩ := tokenizeArgNamesGo_comments _ _ _ h
        refine ⟨.punct c!"..." :: cs.map .comment, [], .punct c!"..." :: cs.map .comment,
          [c!"..."], by simp [hcs], ?_, idsAndComments_nil, .inr ⟨⟨cs.map .comment, ?_, rfl⟩, rfl⟩,
          fun _ h => by cases h⟩
        · simp [detokenize, Token.detokenize, detokenize_comments, bind, Except.bind]
        · intro t ht
          obtain ⟨c, _, rfl⟩ := List.mem_map.1 ht
          exact ⟨c, rfl⟩
      · simp at h
    · rename_i c hcm
      obtain ⟨ts, xs, tail, dots, h1, h2, h3, h4, h5⟩ := ih _ _ h
      refine ⟨.comment c :: ts, .comment c :: xs, tail, dots, by simp [h1], ?_, ?_, h4, ?_⟩
      · simp [detokenize, Token.detokenize, h2, bind, Except.bind]
      · intro t ht
        rcases List.mem_cons.1 ht with rfl | ht
        · exact .inr ⟨c, rfl⟩
        · exact h3 t ht
      · simpa [idsOf] using h5
    · simp at h

theorem realParams_ids : ∀ {xs : List MacroToken}, IdsAndComments xs → (realParams xs).length = (idsOf xs).length
  | [], _ => rfl
  | x :: xs, hx => by
    have ih := realParams_ids (xs := xs) fun t h => hx t (List.mem_cons_of_mem _ h)
    unfold realParams at ih ⊢
    rcases hx x List.mem_cons_self with ⟨id, rfl⟩ | ⟨c, rfl⟩
    · simpa [idsOf] using ih
    · simpa [idsOf] using ih

theorem realParams_comments {cs : List MacroToken} (h : Comments cs) : realParams cs = [] := by
  unfold realParams
  rw [List.filter_eq_nil_iff]
  intro t ht
  obtain ⟨c, rfl⟩ := h t ht
  simp

/-- The names in the result of `expand_fn_macro` are identifiers; the parameter list parses to identifiers,
possibly followed by `...`, as many as it has entries other than comments. -/
theorem expandFn_word (L : E.Lawful) {k : Nat} {f : Str} {as toks : List MacroToken}
    (hx : ms.expandFn E k f = .ok (as, toks)) :
    (∀ s, MacroToken.ident s ∈ toks → Word E s) ∧
    ∃ args, FnMacro.parseArgs as = some (args, []) ∧ CalmParams E args ∧ args.length = (realParams as).length := by
  unfold MacroSet.expandFn at hx
  split at hx
  · simp at hx
  · rename_i params body hg
    split at hx
    · simp at hx
    · rename_i names hn
      split at hx
      · simp at hx
      · rename_i ts hts
        split at hx
        · simp at hx
        · rename_i toks' hd
          split at hx
          · simp at hx
          · rename_i as' ha
            simp only [Except.ok.injEq, Prod.mk.injEq] at hx
            obtain ⟨rfl, rfl⟩ := hx
            constructor
            · have H := sound_stepInv L ms
              have hsat := expandFnMacroBody_none_sat H (n := k) (names := []) (name := f)
                (argNames := names) (b := tokenize E names body) (by
                  intro _ t ht
                  obtain ⟨s, _, rfl⟩ := List.mem_map.1 ht
                  exact sound_tokenizeOne names s)
              rw [hts] at hsat
              exact fun s hs => detokenize_word hsat hd hs
            · obtain ⟨ts', xs, tail, dots, h1, h2, h3, h4, h5⟩ := tokenizeArgNamesGo_shape _ _ _ hn
              simp only [List.nil_append] at h1
              subst h1
              rw [h2] at ha
              cases ha
              refine ⟨idsOf xs ++ dots, ?_, ?_, ?_⟩
              · rcases h4 with ⟨rfl, rfl⟩ | ⟨⟨cs, hcs, rfl⟩, rfl⟩
                · simpa using parseArgs_plain h3
                · exact parseArgs_variadic h3 hcs
              · rcases h4 with ⟨_, rfl⟩ | ⟨_, rfl⟩
                · left; simpa using h5
                · exact .inr ⟨_, rfl, h5⟩
              · have hr : realParams (xs ++ tail) = realParams xs ++ realParams tail := by simp [realParams]
                rw [hr, List.length_append, List.length_append, realParams_ids h3]
                rcases h4 with ⟨rfl, rfl⟩ | ⟨⟨cs, hcs, rfl⟩, rfl⟩
                · rfl
                · have : realParams (.punct c!"..." :: cs) = .punct c!"..." :: realParams cs := rfl
                  rw [this, realParams_comments hcs]; rfl

/-! ## Names and steadiness together -/

variable {K : Kit} {ps : List Str}

theorem steadyExprs_iff : ∀ {es : List Expr}, SteadyExprs ps es ↔ ∀ e ∈ es, SteadyExpr ps e
  | [] => by simp [SteadyExprs]
  | e :: es => by simp [SteadyExprs, steadyExprs_iff (es := es)]

mutual
theorem calm_of_kit_expr (hK : K.n = ps.length) (hp : NamesOk K.env ps) : ∀ {e : Expr}, K.Expr e → SteadyExpr ps e →
    CalmExpr K.env ps e
  | .var n, h, _ => by simp only [Kit.Expr, CalmExpr] at h ⊢; exact hK ▸ h
  | .call n as, h, hs => by
    simp only [Kit.Expr, CalmExpr, SteadyExpr] at h hs ⊢
    exact ⟨hK ▸ h.1, calm_of_kit_exprs hK hp h.2 hs⟩
  | .cast t e, h, hs => by
    simp only [Kit.Expr, CalmExpr, SteadyExpr] at h hs ⊢
    exact ⟨hK ▸ h.1, calm_of_kit_expr hK hp h.2 hs⟩
  | .lit _, _, _ => by simp [CalmExpr]
  | .stringify (.arg i), h, hs => by
    simp only [Kit.Expr, CalmExpr, SteadyExpr] at h hs ⊢
    have hi : i < ps.length := hK ▸ h.2
    refine ⟨ps[i], List.getElem?_eq_getElem hi, ?_⟩
    rcases hp _ (List.getElem_mem hi) with h' | h'
    · exact absurd ((List.getElem?_eq_getElem hi).trans (congrArg some h')) hs
    · exact h'
  | .stringify (.plain _), _, _ => by simp [CalmExpr]
  | .stringify (.concat _), _, _ => by simp [CalmExpr]
  | .concatStr es, h, hs => by
    simp only [Kit.Expr, CalmExpr, SteadyExpr] at h hs ⊢
    exact calm_of_kit_exprs hK hp h hs
  | .sizeOf t, h, _ => by simp only [Kit.Expr, CalmExpr] at h ⊢; exact hK ▸ h
  | .un _ e, h, hs => by
    simp only [Kit.Expr, CalmExpr, SteadyExpr] at h hs ⊢
    exact calm_of_kit_expr hK hp h hs
  | .bin l op r, h, hs => by
    simp only [Kit.Expr, CalmExpr, SteadyExpr] at h hs ⊢
    exact ⟨hs.1, calm_of_kit_expr hK hp h.2.1 hs.2.1, calm_of_kit_expr hK hp h.2.2 hs.2.2⟩
  | .ternary c t f, h, hs => by
    simp only [Kit.Expr, CalmExpr, SteadyExpr] at h hs ⊢
    exact ⟨calm_of_kit_expr hK hp h.1 hs.1, calm_of_kit_expr hK hp h.2.1 hs.2.1, calm_of_kit_expr hK hp h.2.2 hs.2.2⟩
theorem calm_of_kit_exprs (hK : K.n = ps.length) (hp : NamesOk K.env ps) : ∀ {es : List Expr}, K.Exprs es →
    SteadyExprs ps es → CalmExprs K.env ps es
  | [], _, _ => by simp [CalmExprs]
  | e :: es, h, hs => by
    simp only [Kit.Exprs, CalmExprs, SteadyExprs] at h hs ⊢
    exact ⟨calm_of_kit_expr hK hp h.1 hs.1, calm_of_kit_exprs hK hp h.2 hs.2⟩
end

mutual
theorem calm_of_kit_stmt (hK : K.n = ps.length) (hp : NamesOk K.env ps) : ∀ {s : Stmt}, K.Stmt s → SteadyStmt ps s →
    CalmStmt K.env ps s
  | .asm a, h, hs => by
    simp only [Kit.Stmt, Kit.Asm, CalmStmt, CalmAsm, SteadyStmt] at h hs ⊢
    exact ⟨fun o ho => calm_of_kit_expr hK hp (h.2.1 o ho) (hs.1 o ho),
      fun o ho => calm_of_kit_expr hK hp (h.2.2 o ho) (hs.2.1 o ho), hs.2.2⟩
  | .expr e, h, hs => by
    simp only [Kit.Stmt, CalmStmt, SteadyStmt] at h hs ⊢
    exact calm_of_kit_expr hK hp h hs
  | .fnDecl d, h, _ => by simp only [Kit.Stmt, CalmStmt] at h ⊢; exact hK ▸ h
  | .varDecl d, h, hs => by
    simp only [Kit.Stmt, CalmStmt, SteadyStmt] at h hs ⊢
    exact ⟨hK ▸ h.1, hK ▸ h.2.1, calm_of_kit_expr hK hp h.2.2 hs⟩
  | .block ss, h, hs => by
    simp only [Kit.Stmt, CalmStmt, SteadyStmt] at h hs ⊢
    exact calm_of_kit_stmts hK hp h hs
  | .ite c t f, h, hs => by
    simp only [Kit.Stmt, CalmStmt, SteadyStmt] at h hs ⊢
    exact ⟨calm_of_kit_expr hK hp h.1 hs.1, calm_of_kit_stmts hK hp h.2.1 hs.2.1, calm_of_kit_stmts hK hp h.2.2 hs.2.2⟩
  | .doWhile b c, h, hs => by
    simp only [Kit.Stmt, CalmStmt, SteadyStmt] at h hs ⊢
    exact ⟨calm_of_kit_stmts hK hp h.1 hs.1, calm_of_kit_expr hK hp h.2 hs.2⟩
theorem calm_of_kit_stmts (hK : K.n = ps.length) (hp : NamesOk K.env ps) : ∀ {ss : List Stmt}, K.Stmts ss →
    SteadyStmts ps ss → CalmStmts K.env ps ss
  | [], _, _ => by simp [CalmStmts]
  | s :: ss, h, hs => by
    simp only [Kit.Stmts, CalmStmts, SteadyStmts] at h hs ⊢
    exact ⟨calm_of_kit_stmt hK hp h.1 hs.1, calm_of_kit_stmts hK hp h.2 hs.2⟩
end

theorem calm_of_kit (hK : K.n = ps.length) (hp : NamesOk K.env ps) {b : MacroBody} (h : K.Body b) (hs : SteadyBody ps b) :
    CalmBody K.env ps b := by
  cases b with
  | stmt s => exact calm_of_kit_stmt hK hp h hs
  | expr e => exact calm_of_kit_expr hK hp h hs

mutual
theorem steady_of_kit_expr (hq : ¬ K.quot) (hh : ¬ K.str) : ∀ {e : Expr}, K.Expr e → SteadyExpr ps e
  | .var n, _ => by simp [SteadyExpr]
  | .call n as, h => by
    simp only [Kit.Expr, SteadyExpr] at h ⊢
    exact steady_of_kit_exprs hq hh h.2
  | .cast t e, h => by
    simp only [Kit.Expr, SteadyExpr] at h ⊢
    exact steady_of_kit_expr hq hh h.2
  | .lit _, _ => by simp [SteadyExpr]
  | .stringify n, h => by simp only [Kit.Expr] at h; exact absurd h.1 hh
  | .concatStr es, h => by
    simp only [Kit.Expr, SteadyExpr] at h ⊢
    exact steady_of_kit_exprs hq hh h
  | .sizeOf t, _ => by simp [SteadyExpr]
  | .un _ e, h => by
    simp only [Kit.Expr, SteadyExpr] at h ⊢
    exact steady_of_kit_expr hq hh h
  | .bin l op r, h => by
    simp only [Kit.Expr, SteadyExpr] at h ⊢
    exact ⟨fun ho => absurd (h.1 ho) hq, steady_of_kit_expr hq hh h.2.1, steady_of_kit_expr hq hh h.2.2⟩
  | .ternary c t f, h => by
    simp only [Kit.Expr, SteadyExpr] at h ⊢
    exact ⟨steady_of_kit_expr hq hh h.1, steady_of_kit_expr hq hh h.2.1, steady_of_kit_expr hq hh h.2.2⟩
theorem steady_of_kit_exprs (hq : ¬ K.quot) (hh : ¬ K.str) : ∀ {es : List Expr}, K.Exprs es → SteadyExprs ps es
  | [], _ => by simp [SteadyExprs]
  | e :: es, h => by
    simp only [Kit.Exprs, SteadyExprs] at h ⊢
    exact ⟨steady_of_kit_expr hq hh h.1, steady_of_kit_exprs hq hh h.2⟩
end

mutual
theorem steady_of_kit_stmt (hq : ¬ K.quot) (hh : ¬ K.str) (ha : ¬ K.asm) : ∀ {s : Stmt}, K.Stmt s → SteadyStmt ps s
  | .asm a, h => by simp only [Kit.Stmt, Kit.Asm] at h; exact absurd h.1 ha
  | .expr e, h => by
    simp only [Kit.Stmt, SteadyStmt] at h ⊢
    exact steady_of_kit_expr hq hh h
  | .fnDecl d, _ => by simp [SteadyStmt]
  | .varDecl d, h => by
    simp only [Kit.Stmt, SteadyStmt] at h ⊢
    exact steady_of_kit_expr hq hh h.2.2
  | .block ss, h => by
    simp only [Kit.Stmt, SteadyStmt] at h ⊢
    exact steady_of_kit_stmts hq hh ha h
  | .ite c t f, h => by
    simp only [Kit.Stmt, SteadyStmt] at h ⊢
    exact ⟨steady_of_kit_expr hq hh h.1, steady_of_kit_stmts hq hh ha h.2.1, steady_of_kit_stmts hq hh ha h.2.2⟩
  | .doWhile b c, h => by
    simp only [Kit.Stmt, SteadyStmt] at h ⊢
    exact ⟨steady_of_kit_stmts hq hh ha h.1, steady_of_kit_expr hq hh h.2⟩
theorem steady_of_kit_stmts (hq : ¬ K.quot) (hh : ¬ K.str) (ha : ¬ K.asm) : ∀ {ss : List Stmt}, K.Stmts ss →
    SteadyStmts ps ss
  | [], _ => by simp [SteadyStmts]
  | s :: ss, h => by
    simp only [Kit.Stmts, SteadyStmts] at h ⊢
    exact ⟨steady_of_kit_stmt hq hh ha h.1, steady_of_kit_stmts hq hh ha h.2⟩
end

theorem steady_of_kit (hq : ¬ K.quot) (hh : ¬ K.str) (ha : ¬ K.asm) {b : MacroBody} (h : K.Body b) : SteadyBody ps b := by
  cases b with
  | stmt s => exact steady_of_kit_stmt hq hh ha h
  | expr e => exact steady_of_kit_expr hq hh h

end CMacro
