import Verif.Proofs.Panic
import Verif.Proofs.Paste
import Verif.Proofs.Lit

/-! # Panic-freedom of the primitive steps -/

namespace CMacro
open Spec (Item Table BlockComment IsIdent)
open Parser

variable {E : Env} {ms : MacroSet}

/-- Not a panic. -/
def NoPanic (e : Fail) : Prop := ∀ s, e ≠ .panic s

theorem findIdx?_isIdentNamed {l : List Token} {s : Str} {i : Nat}
    (h : l.findIdx? (Token.isIdentNamed s) = some i) : ∃ hi : i < l.length, l[i] = .ident s := by
  obtain ⟨hi, h1, _⟩ := List.findIdx?_eq_some_iff_getElem.1 h
  refine ⟨hi, ?_⟩
  generalize l[i] = t at h1
  cases t with
  | ident id => simp only [Token.isIdentNamed, decide_eq_true_eq] at h1; rw [h1]
  | _ => simp [Token.isIdentNamed] at h1

/-- Selecting an argument does not panic unless a variadic macro has two named parameters. -/
theorem selectArg_noPanic {as b : List Str} {names : List Token} {args : List (List Token)}
    {t : Token} (hn : tokenizeArgNames E as = .ok names) (hne : args ≠ [])
    (har : isVariadic (names.filter Token.isNotComment) = false →
      arityMismatch (names.filter Token.isNotComment) args = false)
    (ht : t ∈ tokenize E names b) (hta : t.isArg = true)
    (hva : t = .varArgs → isVariadic (names.filter Token.isNotComment) = true)
    (hv : isVariadic (names.filter Token.isNotComment) = true →
      (names.filter Token.isNotComment).length ≤ 2) :
    (selectArg (names.filter Token.isNotComment) args t).Sat (fun _ => True) NoPanic := by
  have hpt := tokenizeArgNamesGo_tok _ _ _ _ AllTok.nil hn
  have hlen : 1 ≤ args.length := List.length_pos_iff.2 hne
  cases t with
  | macroArg i =>
    have hi : i < args.length := by
      obtain ⟨s, _, hs⟩ := List.mem_map.1 ht
      unfold tokenizeOne at hs
      rw [filter_isParam_eq hpt] at hs
      split at hs
      · rename_i j hj
        simp only [Token.macroArg.injEq] at hs
        subst hs
        obtain ⟨hj1, hj2⟩ := findIdx?_isIdentNamed hj
        cases hvv : isVariadic (names.filter Token.isNotComment) with
        | true =>
          have := hv hvv
          simp only [isVariadic, decide_eq_true_eq] at hvv
          have : j ≠ (names.filter Token.isNotComment).length - 1 := by
            intro hjl
            rw [List.getLast?_eq_getElem?, ← hjl, List.getElem?_eq_getElem hj1, hj2] at hvv
            simp at hvv
          omega
        | false =>
          have := har hvv
          simp only [arityMismatch, Bool.and_eq_false_iff, decide_eq_false_iff_not,
            Decidable.not_not, ne_eq, Bool.not_eq_false', Bool.and_eq_true, List.isEmpty_iff] at this
          rcases this with h | h
          · omega
          · rw [h.1] at hj1; simp at hj1
      · exact absurd hs (fromStr_ne_macroArg E s i)
    simp only [selectArg, List.getElem?_eq_getElem hi]
    trivial
  | varArgs =>
    have h1 := hva rfl
    have h2 := hv h1
    simp only [selectArg]
    rw [if_neg]
    · trivial
    · intro hc
      rcases hc with hc | hc
      · rw [List.eq_nil_of_length_eq_zero hc] at h1
        simp [isVariadic] at h1
      · omega
  | _ => simp [Token.isArg] at hta

/-- Variadic macros have at most one named parameter. -/
def ShortVariadic (E : Env) (ms : MacroSet) : Prop := ∀ id as b names, ms.fn.get id = some (as, b) →
  tokenizeArgNames E as = .ok names → isVariadic (names.filter Token.isNotComment) = true →
  (names.filter Token.isNotComment).length ≤ 2

/-- Without `##` nothing panics. -/
theorem noPaste_stepInv (hv : ShortVariadic E ms)
    (hfn : ∀ id as b, ms.fn.get id = some (as, b) → ∀ s ∈ b, ¬ c!"##" <:+ s)
    (hvar : ∀ id b, ms.var.get id = some b → ∀ s ∈ b, ¬ c!"##" <:+ s) :
    StepInv E ms (fun t => t ≠ .punct c!"##") NoPanic where
  diverge := by intro s; simp
  concatBegin := by intro s; simp
  concatEnd := by intro s; simp
  nonVariadic := by intro s; simp
  arity := by intros; intro s; simp
  nonUnique := by intro n s; simp
  strNonArg := by intro s; simp
  argName := by intro s; simp
  paint := by intro id _; simp
  concat := fun h => absurd rfl h
  placemarker := by simp
  comma := by simp
  stringify := fun nested arg h ha => stringify_all h (fun _ _ => by simp) nested arg ha
  fnBody := by
    intro id as b names hg hn t ht
    obtain ⟨s, hs, rfl⟩ := List.mem_map.1 ht
    right
    intro hc
    unfold tokenizeOne at hc
    split at hc
    · simp at hc
    · exact hfn id as b hg s hs (fromStr_paste_suffix hc)
  varBody := by
    intro id b hg t ht
    obtain ⟨s, hs, rfl⟩ := List.mem_map.1 ht
    exact .inr fun hc => hvar id b hg s hs (fromStr_paste_suffix hc)
  select := by
    intro id as b names args t hg hn hne har ht hta hva
    exact selectArg_noPanic hn hne har ht hta hva (hv id as b names hg hn)

/-! ## With `##` -/

theorem many0_mapOpt_all {σ α : Type} {p : Parser Char σ} {f : σ → Option α} {Q : α → Prop}
    (hs : Shrinks (mapOpt p f)) (hf : ∀ a b, f a = some b → Q b) : ∀ (k : Nat) (i r : Str)
    (as : List α), i.length ≤ k → many0 (mapOpt p f) i = some (as, r) → ∀ a ∈ as, Q a := by
  intro k
  induction k with
  | zero =>
    intro i r as hk h
    have hnil : i = [] := List.eq_nil_of_length_eq_zero (by omega)
    subst hnil
    rw [many0_eq hs] at h
    split at h
    · simp only [Option.some.injEq, Prod.mk.injEq] at h; simp [← h.1]
    · rename_i a r' ha
      have := hs _ _ _ ha
      rw [if_pos (by simpa using this)] at h
      simp at h
  | succ k ih =>
    intro i r as hk h
    rw [many0_eq hs] at h
    split at h
    · simp only [Option.some.injEq, Prod.mk.injEq] at h; simp [← h.1]
    · rename_i a r' ha
      have hle := hs _ _ _ ha
      split at h
      · simp at h
      · split at h
        · rename_i as' r'' has
          simp only [Option.some.injEq, Prod.mk.injEq] at h
          rw [← h.1]
          intro x hx
          obtain ⟨y, _, hy⟩ := mapOpt_inv ha
          rcases List.mem_cons.1 hx with rfl | hx
          · exact hf _ _ hy
          · exact ih _ _ _ (by omega) has x hx
        · simp at h

theorem identTryFrom_isIdent {s id : Str} (h : identTryFrom E s = some id) :
    IsIdent E.xidStart E.xidContinue id := by
  unfold identTryFrom at h
  obtain ⟨⟨a, r⟩, hac, rfl⟩ := Option.map_eq_some_iff.1 h
  obtain ⟨hps, -⟩ := allConsuming_inv hac
  clear h hac
  have hsh : Shrinks (mapOpt identChar fun c => if E.xidContinue c then some c else none) :=
    shrinks_identChar.mapOpt _
  replace hps := or_inv hps
  rcases hps with ha | ⟨-, ha⟩
  · cases s with
    | nil => simp [identPlain] at ha
    | cons c cs =>
      simp only [identPlain] at ha
      split at ha
      · rename_i hc
        simp only [Option.some.injEq, Prod.mk.injEq] at ha
        rw [← ha.1]
        refine ⟨by simpa [isIdentStart] using hc, fun x hx => ?_⟩
        exact (List.all_eq_true.1 (List.all_takeWhile (l := cs) (p := E.xidContinue))) x hx
      · simp at ha
  · replace ha := map_inv ha
    obtain ⟨⟨c, cs⟩, ha, rfl⟩ := ha
    replace ha := seq_inv ha
    obtain ⟨r', h1, h2⟩ := ha
    obtain ⟨x, _, hx⟩ := mapOpt_inv h1
    split at hx
    · rename_i hc
      simp only [Option.some.injEq] at hx
      subst hx
      refine ⟨by simpa [isIdentStart] using hc, ?_⟩
      exact many0_mapOpt_all (Q := fun c => E.xidContinue c = true) hsh (by
        intro a b hb
        split at hb
        · rename_i h; simp only [Option.some.injEq] at hb; exact hb ▸ h
        · simp at hb) _ _ _ _ (Nat.le_refl _) h2
    · simp at hx

theorem identContTryFrom_all {s t : Str} (h : identContTryFrom E s = some t) :
    ∀ c ∈ t, E.xidContinue c = true := by
  unfold identContTryFrom at h
  obtain ⟨⟨a, r⟩, ha, rfl⟩ := Option.map_eq_some_iff.1 h
  obtain ⟨ha, -⟩ := allConsuming_inv ha
  have hsh : Shrinks (mapOpt identChar fun c => if E.xidContinue c then some c else none) :=
    shrinks_identChar.mapOpt _
  rcases or_inv ha with ha | ⟨-, ha⟩
  · exact (takeWhile1_inv ha).2
  · unfold many1 at ha
    split at ha
    · simp at ha
    · exact many0_mapOpt_all (Q := fun c => E.xidContinue c = true) hsh (by
        intro a b hb
        split at hb
        · rename_i h; simp only [Option.some.injEq] at hb; exact hb ▸ h
        · simp at hb) _ _ _ _ (Nat.le_refl _) ha

/-- No quotation marks. -/
def Unquoted (s : Str) : Prop := '"' ∉ s ∧ '\'' ∉ s

theorem Unquoted.append {a b : Str} (ha : Unquoted a) (hb : Unquoted b) : Unquoted (a ++ b) := by
  simp only [Unquoted, List.mem_append] at *
  exact ⟨fun h => h.elim ha.1 hb.1, fun h => h.elim ha.2 hb.2⟩

theorem unquoted_cont (L : E.Lawful) {s : Str} (h : ∀ c ∈ s, E.xidContinue c = true) :
    Unquoted s := by
  obtain ⟨h1, h2⟩ := notCont_quote L
  exact ⟨fun hm => by rw [h _ hm] at h1; simp at h1, fun hm => by rw [h _ hm] at h2; simp at h2⟩

theorem delimited_head {α β : Type} {k : Char} {q : Parser Char α} {p : Parser Char β} {i r : Str}
    {b : α} (h : delimited (tag [k]) q p i = some (b, r)) : k ∈ i := by
  unfold delimited terminated at h
  replace h := map_inv h
  obtain ⟨x, h, -⟩ := h
  replace h := seq_inv h
  obtain ⟨r', h, -⟩ := h
  obtain ⟨_, _, h, -⟩ := preceded_inv h
  rw [tag1_inv h]
  exact List.mem_cons_self

theorem mem_of_litChar {i r : Str} {c : LitChar} (h : LitChar.parseStr i = some (c, r)) :
    '\'' ∈ i := by
  replace h := mapOpt_inv h
  obtain ⟨⟨p, c⟩, h, hp⟩ := h
  replace h := seq_inv h
  obtain ⟨r', h1, h2⟩ := h
  simp only at h1 h2
  have hm : '\'' ∈ r' := delimited_head h2
  rcases opt_inv h1 with ⟨-, rfl, -⟩ | ⟨a, -, ha⟩
  · exact hm
  · replace ha := or_inv ha
    rcases ha with ha | ⟨-, ha⟩
    · replace ha := map_inv ha
      obtain ⟨_, ha, -⟩ := ha
      rw [tag_pair_inv ha]; simp [hm]
    replace ha := or_inv ha
    rcases ha with ha | ⟨-, ha⟩
    · replace ha := map_inv ha
      obtain ⟨_, ha, -⟩ := ha
      rw [tag1_inv ha]; simp [hm]
    replace ha := or_inv ha
    rcases ha with ha | ⟨-, ha⟩
    · replace ha := map_inv ha
      obtain ⟨_, ha, -⟩ := ha
      rw [tag1_inv ha]; simp [hm]
    · replace ha := map_inv ha
      obtain ⟨_, ha, -⟩ := ha
      rw [tag1_inv ha]; simp [hm]

theorem mem_of_litString {i r : Str} {c : LitString} (h : LitString.parseStr i = some (c, r)) :
    '"' ∈ i := by
  unfold LitString.parseStr at h
  replace h := or_inv h
  rcases h with h | ⟨-, h⟩
  · obtain ⟨_, h, -⟩ := map_inv h
    exact delimited_head h
  replace h := or_inv h
  rcases h with h | ⟨-, h⟩
  · obtain ⟨_, r', h1, h2⟩ := preceded_inv h
    obtain ⟨_, h2, -⟩ := map_inv h2
    obtain ⟨_, h2, -⟩ := mapOpt_inv h2
    rw [tag_pair_inv h1]; simp [delimited_head h2]
  replace h := or_inv h
  rcases h with h | ⟨-, h⟩
  · obtain ⟨_, r', h1, h2⟩ := preceded_inv h
    obtain ⟨_, h2, -⟩ := map_inv h2
    obtain ⟨_, h2, -⟩ := mapOpt_inv h2
    rw [tag1_inv h1]; simp [delimited_head h2]
  replace h := or_inv h
  rcases h with h | ⟨-, h⟩
  · obtain ⟨_, r', h1, h2⟩ := preceded_inv h
    obtain ⟨_, h2, -⟩ := map_inv h2
    rw [tag1_inv h1]; simp [delimited_head h2]
  · obtain ⟨_, r', h1, h2⟩ := preceded_inv h
    obtain ⟨_, h2, -⟩ := map_inv h2
    rw [tag1_inv h1]; simp [delimited_head h2]

/-- Tokens as they occur when there are no comments, quotation marks and `#`. -/
def Quiet (E : Env) : Token → Prop
  | .ident s => IsIdent E.xidStart E.xidContinue s
  | .identCont s => ∀ c ∈ s, E.xidContinue c = true
  | .lit (.int _) s => ∀ c ∈ s, c.isAlphanum = true
  | .lit (.float _) s => Unquoted s
  | .lit _ _ => False
  | .comment _ => False
  | .plain s => Unquoted s
  | .punct p => p ≠ c!"#"
  | .nonRepl (.ident s) => IsIdent E.xidStart E.xidContinue s
  | .nonRepl (.punct p) => p ≠ c!"#"
  | .nonRepl _ => False
  | .macroArg _ => True
  | .varArgs => True
  | .placemarker => True

theorem quiet_lit {s : Str} {l : Lit} (hs : Unquoted s) (h : Lit.tryFrom s = some l) :
    Quiet E (.lit l s) := by
  replace h := litTryFrom_inv h
  rcases h with ⟨c, rfl, h⟩ | ⟨c, rfl, h⟩ | ⟨c, rfl, h⟩ | ⟨c, rfl, h⟩
  · exact absurd (mem_of_litChar h) hs.2
  · exact absurd (mem_of_litString h) hs.1
  · exact hs
  · exact (litInt_text h).2

/-- No quotation marks, not a comment, not `#`, no leading line continuation. -/
def QuietSpelling (s : Str) : Prop :=
  Unquoted s ∧ ¬ c!"/*" <+: s ∧ s ≠ c!"#" ∧ ¬ c!"\\\n" <+: s ∧ ¬ c!"\\\r\n" <+: s

instance (s : Str) : Decidable (QuietSpelling s) := by
  unfold QuietSpelling Unquoted; infer_instance

theorem quiet_fromStr {s : Str} (hq : QuietSpelling s) :
    Quiet E (Token.fromStr E s) := by
  obtain ⟨hs, hc, hh, hn1, hn2⟩ := hq
  have hpt := fun p (h : Token.fromStr E s = .punct p) => fromStr_punct h hn1 hn2
  revert hpt
  unfold Token.fromStr
  split
  · intro _; trivial
  · split
    · rename_i h; exact fun _ => identTryFrom_isIdent h
    · split
      · rename_i h; exact fun _ => quiet_lit hs h
      · split
        · rename_i h; exact fun _ => identContTryFrom_all h
        · split
          · rename_i p h
            intro hpt
            show p ≠ c!"#"
            rintro rfl
            exact hh (hpt _ rfl).symm
          · split
            · rename_i h; exact fun _ => hc (commentTryFrom_head h)
            · exact fun _ => hs

theorem quiet_reclassify {s : Str} (hs : Unquoted s) : Quiet E (reclassify E s) := by
  unfold reclassify
  split
  · rename_i h; exact identTryFrom_isIdent h
  · split
    · rename_i h; exact quiet_lit hs h
    · split
      · rename_i h; exact identContTryFrom_all h
      · exact hs

theorem quiet_pasteText (L : E.Lawful) {t : Token} {s : Str} (h : Quiet E t)
    (hs : t.pasteText = some s) : Unquoted s := by
  cases t with
  | ident x =>
    simp only [Token.pasteText, Option.some.injEq] at hs
    subst hs
    exact unquoted_cont L (isIdent_cont L h)
  | identCont x =>
    simp only [Token.pasteText, Option.some.injEq] at hs
    subst hs
    exact unquoted_cont L h
  | plain x => simp only [Token.pasteText, Option.some.injEq] at hs; exact hs ▸ h
  | lit l x =>
    simp only [Token.pasteText, Option.some.injEq] at hs
    subst hs
    cases l with
    | int i => exact unquoted_cont L (fun c hc => cont_alphanum L (h c hc))
    | float f => exact h
    | string => exact h.elim
    | char => exact h.elim
  | _ => simp [Token.pasteText] at hs

theorem quiet_strip {t : Token} (h : Quiet E t) : Quiet E t.strip ∧
    (∀ x, t.strip ≠ .nonRepl x) ∧ (t.isArg = false → t.strip.isArg = false) := by
  cases t with
  | nonRepl t =>
    cases t with
    | ident s => exact ⟨h, by simp [Token.strip], fun _ => rfl⟩
    | punct s => exact ⟨h, by simp [Token.strip], fun _ => rfl⟩
    | _ => exact h.elim
  | _ => exact ⟨h, by simp [Token.strip], fun h => h⟩

theorem punctConcat_ne {l r p : Str} (h : punctConcat l r = some p) : p ≠ c!"#" := by
  unfold punctConcat at h
  split at h <;> simp at h <;> subst h <;> decide

theorem quiet_concat (L : E.Lawful) {a b : Token} (ha : Quiet E a) (hb : Quiet E b)
    (haa : a.isArg = false) (hba : b.isArg = false) :
    (a.concat E b).Sat (Quiet E) NoPanic := by
  obtain ⟨ha, han, haa'⟩ := quiet_strip ha
  obtain ⟨hb, hbn, hba'⟩ := quiet_strip hb
  replace haa := haa' haa
  replace hba := hba' hba
  unfold Token.concat
  generalize a.strip = a at *
  generalize b.strip = b at *
  by_cases hpa : a = .placemarker
  · subst hpa; exact hb
  by_cases hpb : b = .placemarker
  · subst hpb; cases a <;> first | exact ha | exact absurd rfl hpa
  have hpaste : ∀ t : Token, Quiet E t → (∀ x, t ≠ .nonRepl x) → t.isArg = false →
      t ≠ .placemarker → (∃ s, t.pasteText = some s) ∨ ∃ p, t = .punct p := by
    intro t h1 h2 h3 h4
    cases t with
    | nonRepl x => exact absurd rfl (h2 x)
    | punct p => exact .inr ⟨p, rfl⟩
    | macroArg i => simp [Token.isArg] at h3
    | varArgs => simp [Token.isArg] at h3
    | comment c => exact h1.elim
    | placemarker => exact absurd rfl h4
    | _ => exact .inl ⟨_, rfl⟩
  have hgen : (concatGeneral E a b).Sat (Quiet E) NoPanic := by
    unfold concatGeneral
    rcases hpaste a ha han haa hpa with ⟨l, hl⟩ | ⟨p, rfl⟩
    · rcases hpaste b hb hbn hba hpb with ⟨r, hr⟩ | ⟨p, rfl⟩
      · rw [hl, hr]
        exact quiet_reclassify ((quiet_pasteText L ha hl).append (quiet_pasteText L hb hr))
      · rw [hl]
        simp only [Token.pasteText]
        split <;> first | (intro s; simp; done) | skip
        rename_i h1 h2
        exact absurd rfl (h2 p)
    · simp only [Token.pasteText]
      intro s; simp
  have hdot : Unquoted c!"." := ⟨by decide, by decide⟩
  have hnum : ∀ {l s r : Str} {lt : Lit}, Unquoted l → Quiet E (.lit lt r) →
      Res.Sat (Quiet E) NoPanic (match Lit.tryFrom (l ++ r) with
        | some lit => .ok (.lit lit (l ++ r))
        | none => .error (.err .invalidConcat)) := by
    intro l s r lt hl hr
    split
    · rename_i lit h
      exact quiet_lit (hl.append (quiet_pasteText L hr rfl)) h
    · intro s; simp
  unfold concatCore
  split
  · exact hb
  · exact ha
  · exact isIdent_append L ha (isIdent_cont L hb)
  · exact isIdent_append L ha hb
  · split
    · rename_i h; exact punctConcat_ne h
    · intro s; simp
  · intro s; simp
  · intro s; simp
  · unfold concatPunctLit
    split
    · rename_i hl
      subst hl
      split
      · intro s; simp
      · intro s; simp
      · exact hnum (s := []) hdot hb
      · exact hnum (s := []) hdot hb
    · intro s; simp
  · rename_i l lt r
    cases lt with
    | string x => exact hb.elim
    | char x => exact hb.elim
    | int x => exact isIdent_append L ha (fun c hc => cont_alphanum L (hb c hc))
    | float x =>
      simp only [concatIdentLit]
      split
      · rename_i hall
        have hid := isIdent_append L ha (List.all_eq_true.1 hall)
        have hesc : '\\' ∉ l ++ r := by
          intro hm
          have := isIdent_cont L hid _ hm
          rw [L.contAscii _ (by decide)] at this
          revert this
          decide
        rw [(identTryFrom_noEscape E hesc (l ++ r)).2 ⟨rfl, hid⟩]
        exact hid
      · intro s; simp
  · exact hgen

/-- Without comments, quotation marks and `#` nothing panics. -/
theorem quiet_stepInv (L : E.Lawful) (hv : ShortVariadic E ms)
    (hfn : ∀ id as b, ms.fn.get id = some (as, b) → ∀ s ∈ b, QuietSpelling s)
    (hvar : ∀ id b, ms.var.get id = some b → ∀ s ∈ b, QuietSpelling s) :
    StepInv E ms (Quiet E) NoPanic where
  diverge := by intro s; simp
  concatBegin := by intro s; simp
  concatEnd := by intro s; simp
  nonVariadic := by intro s; simp
  arity := by intros; intro s; simp
  nonUnique := by intro n s; simp
  strNonArg := by intro s; simp
  argName := by intro s; simp
  paint := fun _ h => h
  concat := fun _ a b ha hb hab =>
    quiet_concat L ha hb (hab (fun c h => h)).1 (hab (fun c h => h)).2
  placemarker := trivial
  comma := by show c!"," ≠ c!"#"; decide
  stringify := fun nested arg h => absurd rfl h
  fnBody := by
    intro id as b names hg hn t ht
    obtain ⟨s, hs, rfl⟩ := List.mem_map.1 ht
    right
    unfold tokenizeOne
    split
    · trivial
    · exact quiet_fromStr (hfn id as b hg s hs)
  varBody := by
    intro id b hg t ht
    obtain ⟨s, hs, rfl⟩ := List.mem_map.1 ht
    exact .inr (quiet_fromStr (hvar id b hg s hs))
  select := by
    intro id as b names args t hg hn hne har ht hta hva
    exact selectArg_noPanic hn hne har ht hta hva (hv id as b names hg hn)

end CMacro
