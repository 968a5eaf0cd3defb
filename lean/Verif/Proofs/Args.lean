import Verif.Proofs.Concat

/-! # Argument references, parameter lists -/

namespace CMacro
open Spec (Item Table BlockComment)

variable {E : Env} {ms : MacroSet}

/-! ## Which argument references can occur -/

/-- Argument references below `n`, `__VA_ARGS__` only if `v`. -/
def Bounded (n : Nat) (v : Prop) (t : Token) : Prop :=
  (∀ i, t.strip = .macroArg i → i < n) ∧ (t.strip = .varArgs → v)

theorem bounded_of_notArg {n : Nat} {v : Prop} {t : Token} (h : t.strip.isArg = false) :
    Bounded n v t := by
  constructor
  · intro i hi; rw [hi] at h; simp [Token.isArg] at h
  · intro hi; rw [hi] at h; simp [Token.isArg] at h

theorem strip_strip (t : Token) : t.strip.strip = t.strip := by
  have := fun x => strip_ne_nonRepl t x
  generalize t.strip = a' at *
  cases a' with
  | nonRepl x => exact absurd rfl (this x)
  | _ => rfl

/-- What pasting can return. -/
theorem concat_result {a b c : Token} (h : a.concat E b = .ok c) :
    c = a.strip ∨ c = b.strip ∨ c.strip.isArg = false := by
  unfold Token.concat at h
  generalize a.strip = a' at *
  generalize b.strip = b' at *
  unfold concatCore concatPunctLit concatIdentLit concatGeneral reclassify at h
  repeat' split at h
  all_goals simp only [reduceCtorEq, Except.ok.injEq] at h
  all_goals first
    | (subst h; simp [Token.strip, Token.isArg]; done)
    | skip
  all_goals (split at h <;> simp only [reduceCtorEq, Except.ok.injEq] at h <;> subst h <;>
          simp [Token.strip, Token.isArg])

theorem bounded_concat {n : Nat} {v : Prop} {a b : Token} (ha : Bounded n v a) (hb : Bounded n v b) :
    (a.concat E b).Sat (Bounded n v) (fun _ => True) := by
  cases h : a.concat E b with
  | error e => trivial
  | ok c =>
    show Bounded n v c
    rcases concat_result h with rfl | rfl | h
    · unfold Bounded; rw [strip_strip]; exact ha
    · unfold Bounded; rw [strip_strip]; exact hb
    · exact bounded_of_notArg h

theorem strip_fromStr (E : Env) (s : Str) : (Token.fromStr E s).strip = Token.fromStr E s := by
  have := fun x => fromStr_ne_nonRepl E s x
  generalize Token.fromStr E s = t at *
  cases t with
  | nonRepl x => exact absurd rfl (this x)
  | _ => rfl

theorem tokenizeOne_arg {n : Nat} {v : Prop} (names : List Token) (s : Str) :
    (tokenizeOne E names s).isArg = true ∨ Bounded n v (tokenizeOne E names s) := by
  unfold tokenizeOne
  split
  · exact .inl rfl
  · cases h : (Token.fromStr E s).isArg with
    | true => exact .inl rfl
    | false => exact .inr (bounded_of_notArg (by rw [strip_fromStr]; exact h))

theorem bounded_stepInv (E : Env) (ms : MacroSet) (n : Nat) (v : Prop) :
    StepInv E ms (Bounded n v) (fun _ => True) where
  diverge := trivial
  concatBegin := trivial
  concatEnd := trivial
  nonVariadic := trivial
  arity := by intros; trivial
  nonUnique := fun _ => trivial
  strNonArg := trivial
  argName := trivial
  paint := fun _ h => h
  concat := fun _ _ _ ha hb _ => bounded_concat ha hb
  placemarker := bounded_of_notArg rfl
  comma := bounded_of_notArg rfl
  stringify := fun nested arg h ha =>
    stringify_all h (fun _ _ => bounded_of_notArg rfl) nested arg ha
  fnBody := by
    intro id as b names _ _ t ht
    obtain ⟨s, _, rfl⟩ := List.mem_map.1 ht
    exact tokenizeOne_arg names s
  varBody := by
    intro id b _ t ht
    obtain ⟨s, _, rfl⟩ := List.mem_map.1 ht
    exact tokenizeOne_arg [] s
  select := fun _ _ _ _ _ _ _ _ _ _ _ _ _ => sat_true

theorem detokenize_strip (k : Nat) (t : Token) : t.detokenize k = t.strip.detokenize k := by
  induction t with
  | nonRepl t ih => simpa [Token.detokenize, Token.strip] using ih
  | _ => rfl

/-- Argument references after `detokenize` come from argument tokens. -/
theorem detokenize_arg {k : Nat} : ∀ {ts : List Token} {toks : List MacroToken} {i : Nat},
    detokenize k ts = .ok toks → MacroToken.arg i ∈ toks →
    (∃ t ∈ ts, t.strip = .macroArg i) ∨ (i = k - 1 ∧ k ≠ 0 ∧ ∃ t ∈ ts, t.strip = .varArgs) := by
  intro ts
  induction ts with
  | nil => intro toks i h hm; simp [detokenize] at h; subst h; simp at hm
  | cons t ts ih =>
    intro toks i h hm
    simp only [detokenize] at h
    rw [detokenize_strip] at h
    cases h1 : t.strip.detokenize k with
    | error e => rw [h1] at h; simp [bind, Except.bind] at h
    | ok m =>
      cases h2 : detokenize k ts with
      | error e => rw [h1, h2] at h; simp [bind, Except.bind] at h
      | ok ms =>
        rw [h1, h2] at h
        simp only [bind, Except.bind, Except.ok.injEq] at h
        subst h
        rcases List.mem_append.1 hm with hm | hm
        · simp only [Option.mem_toList] at hm
          subst hm
          cases hs : t.strip with
          | macroArg j =>
            rw [hs] at h1
            simp only [Token.detokenize, Except.ok.injEq, Option.some.injEq,
              MacroToken.arg.injEq] at h1
            exact .inl ⟨t, List.mem_cons_self, by rw [hs, h1]⟩
          | varArgs =>
            rw [hs] at h1
            simp only [Token.detokenize] at h1
            split at h1
            · simp at h1
            · rename_i hk
              simp only [Except.ok.injEq, Option.some.injEq, MacroToken.arg.injEq] at h1
              exact .inr ⟨h1.symm, hk, t, List.mem_cons_self, hs⟩
          | nonRepl x => exact absurd hs (strip_ne_nonRepl t x)
          | _ => rw [hs] at h1; simp [Token.detokenize] at h1
        · rcases ih h2 hm with ⟨t', h3, h4⟩ | ⟨h3, h4, t', h5, h6⟩
          · exact .inl ⟨t', List.mem_cons_of_mem _ h3, h4⟩
          · exact .inr ⟨h3, h4, t', List.mem_cons_of_mem _ h5, h6⟩

/-- `detokenize` fails only on tokens that are not C tokens, if there is no `__VA_ARGS__`. -/
theorem detokenize_error_noVar {k : Nat} : ∀ {ts : List Token} {e : Fail},
    detokenize k ts = .error e → (∀ t ∈ ts, t.strip ≠ .varArgs) ∨ k ≠ 0 →
    ∃ s, e = .err (.invalidToken s) := by
  intro ts
  induction ts with
  | nil => intro e h _; simp [detokenize] at h
  | cons t ts ih =>
    intro e h hv
    simp only [detokenize] at h
    rw [detokenize_strip] at h
    cases h1 : t.strip.detokenize k with
    | error e' =>
      rw [h1] at h
      simp only [bind, Except.bind, Except.error.injEq] at h
      subst h
      cases hs : t.strip with
      | varArgs =>
        rw [hs] at h1
        simp only [Token.detokenize] at h1
        split at h1
        · rename_i hk
          rcases hv with hv | hv
          · exact absurd hs (hv t List.mem_cons_self)
          · exact absurd hk hv
        · simp at h1
      | plain s =>
        rw [hs] at h1
        simp only [Token.detokenize, Except.error.injEq] at h1
        exact ⟨s, h1.symm⟩
      | nonRepl x => exact absurd hs (strip_ne_nonRepl t x)
      | _ => rw [hs] at h1; simp [Token.detokenize] at h1
    | ok m =>
      rw [h1] at h
      simp only [bind, Except.bind] at h
      cases h2 : detokenize k ts with
      | error e' =>
        rw [h2] at h
        simp only [Except.error.injEq] at h
        subst h
        exact ih h2 (hv.imp_left fun hv t ht => hv t (List.mem_cons_of_mem _ ht))
      | ok ms => rw [h2] at h; simp at h

theorem expandVarMacroBody_bounded {k : Nat} {name : Str} {b : List Str} {ts : List Token}
    (h : expandVarMacroBody E (expandMacroBody E ms k) [] name (tokenize E [] b) = .ok ts) :
    ∀ t ∈ ts, t.strip.isArg = false := by
  have H := bounded_stepInv E ms 0 False
  have := expandVarMacroBody_sat H (rec := expandMacroBody E ms k)
    (fun S ts h' => expandMacroBody_sat H k S ts h') (names := []) (name := name) (b := b) (by
      intro t ht
      obtain ⟨s, _, rfl⟩ := List.mem_map.1 ht
      exact tokenizeOne_arg [] s)
  rw [h] at this
  intro t ht
  obtain ⟨h1, h2⟩ := this t ht
  cases hs : t.strip with
  | macroArg i => exact absurd (h1 i hs) (by omega)
  | varArgs => exact (h2 hs).elim
  | _ => rfl

/-! ## Tokenized parameter lists -/

/-- Identifiers, `...` and comments. -/
def ParamTok : Token → Prop
  | .ident _ => True
  | .punct p => p = c!"..."
  | .comment _ => True
  | _ => False

theorem tokenizeArgNamesGo_tok : ∀ (ss : List Str) (v : Bool) (acc names : List Token),
    AllTok ParamTok acc → tokenizeArgNamesGo E v acc ss = .ok names → AllTok ParamTok names := by
  intro ss
  induction ss with
  | nil => intro v acc names ha h; simp only [tokenizeArgNamesGo, Except.ok.injEq] at h; exact h ▸ ha
  | cons s ss ih =>
    intro v acc names ha h
    have hadd : ∀ t, ParamTok t → AllTok ParamTok (acc ++ [t]) := by
      intro t ht x hx
      rcases List.mem_append.1 hx with hx | hx
      · exact ha x hx
      · simp only [List.mem_singleton] at hx; exact hx ▸ ht
    unfold tokenizeArgNamesGo at h
    split at h
    · split at h
      · simp at h
      · split at h
        · simp at h
        · exact ih _ _ _ (hadd (.ident _) trivial) h
    · split at h
      · split at h
        · simp at h
        · rename_i hp _
          exact ih _ _ _ (hadd (.punct _) hp) h
      · simp at h
    · exact ih _ _ _ (hadd (.comment _) trivial) h
    · simp at h

/-- As many indices as entries that are no comments. -/
theorem filter_isParam_eq {names : List Token} (h : AllTok ParamTok names) :
    names.filter Token.isParam = names.filter Token.isNotComment := by
  apply List.filter_congr
  intro t ht
  have := h t ht
  cases t <;> simp_all [ParamTok, Token.isParam, Token.isNotComment]

theorem tokenizeOne_bounded {names : List Token} (hn : AllTok ParamTok names) (s : Str) :
    Bounded (names.filter Token.isNotComment).length (s = c!"__VA_ARGS__") (tokenizeOne E names s) := by
  unfold tokenizeOne
  rw [filter_isParam_eq hn]
  split
  · rename_i i hi
    refine ⟨?_, by simp [Token.strip]⟩
    intro j hj
    simp only [Token.strip, Token.macroArg.injEq] at hj
    subst hj
    exact (List.findIdx?_eq_some_iff_getElem.1 hi).1
  · refine ⟨fun i hi => ?_, fun hv => ?_⟩
    · rw [strip_fromStr] at hi; exact absurd hi (fromStr_ne_macroArg E s i)
    · rw [strip_fromStr] at hv; exact fromStr_varArgs.1 hv

/-- How the parameter list is returned. -/
theorem detokenize_params : ∀ {names : List Token} {as : List MacroToken}, AllTok ParamTok names →
    detokenize 0 names = .ok as → as.length = names.length ∧
      (as.filter fun a => match a with | .comment _ => false | _ => true).length =
        (names.filter Token.isNotComment).length := by
  intro names
  induction names with
  | nil => intro as _ h; simp [detokenize] at h; simp [h]
  | cons t ts ih =>
    intro as hp h
    have htl : AllTok ParamTok ts := fun x hx => hp x (List.mem_cons_of_mem _ hx)
    have ht := hp t List.mem_cons_self
    simp only [detokenize] at h
    cases h2 : detokenize 0 ts with
    | error e =>
      rw [h2] at h
      cases t <;> simp [ParamTok, Token.detokenize, bind, Except.bind] at ht h
    | ok ms =>
      rw [h2] at h
      have := ih htl h2
      cases t <;> simp [ParamTok, Token.detokenize, bind, Except.bind] at ht h
      all_goals
        subst h
        simp [List.filter_cons, this.1, this.2, Token.isNotComment]

/-! ## Comments -/

theorem takeUntilEnd_inv : ∀ {s t r : Str}, takeUntilEnd s = some (t, r) →
    s = t ++ r ∧ c!"*/" <+: r ∧ ¬ c!"*/" <:+: t := by
  intro s
  induction s with
  | nil => intro t r h; simp [takeUntilEnd] at h
  | cons c s ih =>
    intro t r h
    rw [takeUntilEnd.eq_def] at h
    simp only at h
    split at h
    · rename_i r'
      simp only [Option.some.injEq, Prod.mk.injEq] at h
      obtain ⟨rfl, rfl⟩ := h
      exact ⟨rfl, by simp, by simp⟩
    · rename_i hne
      cases h1 : takeUntilEnd s with
      | none => rw [h1] at h; simp at h
      | some x =>
        obtain ⟨t', r''⟩ := x
        rw [h1] at h
        simp only [Option.some.injEq, Prod.mk.injEq] at h
        obtain ⟨rfl, rfl⟩ := h
        obtain ⟨h2, h3, h4⟩ := ih h1
        refine ⟨by simp [h2], h3, ?_⟩
        intro hi
        rcases List.infix_cons_iff.1 hi with hp | hi
        · obtain ⟨z, hz⟩ := hp
          simp only [List.cons_append, List.nil_append, List.cons.injEq] at hz
          obtain ⟨rfl, rfl⟩ := hz
          exact hne (z ++ r'') rfl (by rw [h2]; rfl)
        · exact h4 hi

theorem blockComment_of_fromStr {s c : Str} (h : Token.fromStr E s = .comment c) :
    BlockComment s := by
  unfold Token.fromStr at h
  repeat' split at h
  all_goals first | (simp at h; done) | skip
  rename_i hct
  unfold commentTryFrom at hct
  cases ha : Parser.allConsuming (Parser.delimited (Parser.tag c!"/*") takeUntilEnd
      (Parser.tag c!"*/")) s with
  | none => simp [ha] at hct
  | some x =>
    obtain ⟨y, r⟩ := x
    obtain ⟨h, -⟩ := Parser.allConsuming_inv ha
    unfold Parser.delimited Parser.terminated Parser.preceded at h
    replace h := Parser.map_inv h
    obtain ⟨x, h, -⟩ := h
    replace h := Parser.seq_inv h
    obtain ⟨r', h, h'⟩ := h
    replace h := Parser.map_inv h
    obtain ⟨y, h, -⟩ := h
    replace h := Parser.seq_inv h
    obtain ⟨r'', h, h''⟩ := h
    have h1 := tag_pair_inv h
    have h2 := tag_pair_inv h'
    obtain ⟨h3, -, h4⟩ := takeUntilEnd_inv h''
    refine ⟨y.2, ?_, h4⟩
    rw [h1, h3, h2]
    simp

end CMacro
