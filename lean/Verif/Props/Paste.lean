import Verif.Proofs.CallStep
import Verif.Props.Lex
import Verif.Props.Calls

/-!
# Properties C16, C17, C54: the `##` operator
-/

namespace CMacro
open Spec (Op Def Table Item Call NoMacro ArityOk BlockComment)

/-! ## C16 -/

/-- Joining `a` and `b` gives something that is read as a word, number or literal of its own:
not a punctuator (C46 is about those), not a comment, not `__VA_ARGS__`. -/
def Joinable (a b : Str) : Prop :=
  a ++ b ≠ c!"__VA_ARGS__" ∧ a ++ b ∉ Spec.punctuators ∧ ¬ c!"/*" <+: a ++ b ∧ ¬ c!"/*" <+: b

instance (a b : Str) : Decidable (Joinable a b) := by unfold Joinable; infer_instance

/-- **C16**, the full statement: if text with one `a ## b` expands, then so does the text in which
`a` and `b` are written together, with the same result. -/
def C16_statement : Prop :=
  ∀ (E : Env), E.Lawful → ∀ (h : List Op) (pre post : List Str) (a b : Str),
    Joinable a b → (∀ s ∈ pre ++ [a, b] ++ post, ¬ c!"##" <:+ s) →
    ∀ (k : Nat) (toks : List MacroToken),
      (MacroSet.run h).expand E k (pre ++ [a, c!"##", b] ++ post) = .ok toks →
      (MacroSet.run h).expand E k (pre ++ [a ++ b] ++ post) = .ok toks

/-- **C16** is false of the code: `a ## \u0401` gives the identifier `aЁ`, but the token
`a\u0401` is rejected. -/
theorem C16_false : ¬ C16_statement := by
  intro hs
  have h1 := hs cyrillicEnv cyrillicEnv_lawful [] [] [] c!"a" c!"\\u0401" (by decide) (by decide)
    1 [.ident c!"aЁ"] (by decide +kernel)
  revert h1
  decide +kernel

/-- **C16**, what holds: the full statement for operands without a backslash. -/
theorem C16_paste_joins_spellings_partial (E : Env) (L : E.Lawful) (h : List Op)
    (pre post : List Str) (a b : Str) (hj : Joinable a b) (ha : '\\' ∉ a) (hb : '\\' ∉ b)
    (hn : ∀ s ∈ pre ++ [a, b] ++ post, ¬ c!"##" <:+ s) (k : Nat) (toks : List MacroToken)
    (hx : (MacroSet.run h).expand E k (pre ++ [a, c!"##", b] ++ post) = .ok toks) :
    (MacroSet.run h).expand E k (pre ++ [a ++ b] ++ post) = .ok toks := by
  obtain ⟨hv, hp, hc, hcb⟩ := hj
  have htok : ∀ l : List Str, tokenize E [] l = l.map (Token.fromStr E) := by
    intro l; rfl
  have hno : ∀ {s : Str}, s ∈ pre ++ [a, b] ++ post → Token.fromStr E s ≠ .punct c!"##" :=
    fun hs he => hn _ hs (fromStr_paste_suffix he)
  have hcom : ∀ s : Str, ¬ c!"/*" <+: s → ∀ c, Token.fromStr E s ≠ .comment c := by
    intro s hs c he
    apply hs
    unfold Token.fromStr at he
    repeat' split at he
    all_goals first | (simp at he; done) | skip
    rename_i hct
    exact commentTryFrom_head hct
  have hac : ¬ c!"/*" <+: a := fun hp => hc (hp.trans (List.prefix_append _ _))
  unfold MacroSet.expand at hx ⊢
  unfold expandVarMacroBody at hx ⊢
  simp only [htok, List.map_append, List.map_cons, List.map_nil] at hx ⊢
  have hpreN : ∀ t ∈ pre.map (Token.fromStr E), t ≠ Token.punct c!"##" := by
    intro t ht
    obtain ⟨s, hs, rfl⟩ := List.mem_map.1 ht
    exact hno (by simp [hs])
  have hpostN : ∀ t ∈ post.map (Token.fromStr E), t ≠ Token.punct c!"##" := by
    intro t ht
    obtain ⟨s, hs, rfl⟩ := List.mem_map.1 ht
    exact hno (by simp [hs])
  by_cases hcv : containsVarArgs (pre.map (Token.fromStr E) ++
      [Token.fromStr E a, Token.fromStr E c!"##", Token.fromStr E b] ++
      post.map (Token.fromStr E)) = true
  · rw [if_pos hcv] at hx; simp at hx
  rw [if_neg hcv] at hx
  simp only [containsVarArgs, List.any_eq_true, List.mem_append, List.mem_cons, List.not_mem_nil,
    or_false, decide_eq_true_eq, not_exists, not_and] at hcv
  have hva : ∀ {s : Str}, Token.fromStr E s ≠ .varArgs → (Token.fromStr E s).isArg = false := by
    intro s hs
    cases hi : (Token.fromStr E s).isArg with
    | false => rfl
    | true => exact absurd (fromStr_varArgs.2 (fromStr_isArg.1 hi)) hs
  have haV := hcv (Token.fromStr E a) (by simp)
  have hbV := hcv (Token.fromStr E b) (by simp)
  rw [List.append_assoc, fromStr_hashhash L] at hx
  simp only [List.cons_append, List.nil_append] at hx
  rw [expandConcat_one hpreN hpostN (hno (by simp)) (hno (by simp)) (hva haV) (hva hbV)
    (hcom a hac) (hcom b hcb)] at hx
  cases hcc : (Token.fromStr E a).concat E (Token.fromStr E b) with
  | error e => rw [hcc] at hx; simp at hx
  | ok t =>
    rw [hcc] at hx
    have ht := concat_fromStr L ha hb hv hp hc hcc
    have htv : Token.fromStr E (a ++ b) ≠ .varArgs := fun he => hv (fromStr_varArgs.1 he)
    have htn : Token.fromStr E (a ++ b) ≠ .punct c!"##" := by
      intro he
      have hab : '\\' ∉ a ++ b := by simp [ha, hb]
      have hfs := fromStr_spec (E := E) hab
      rw [he] at hfs
      generalize hg : a ++ b = s at *
      generalize htt : Token.punct c!"##" = tt at hfs
      cases hfs <;> simp at htt
      rename_i hm
      exact hp hm
    rw [if_neg (by
      simp only [containsVarArgs, List.any_eq_true, List.mem_append, List.mem_cons,
        List.not_mem_nil, or_false, decide_eq_true_eq, not_exists, not_and]
      rintro x ((hx' | rfl) | hx')
      · exact hcv x (by simp only [hx']; simp)
      · exact htv
      · exact hcv x (by simp only [hx']; simp)),
      expandConcat_noop (by
        intro x hx'
        simp only [List.mem_append, List.mem_cons, List.not_mem_nil, or_false] at hx'
        rcases hx' with (hx' | rfl) | hx'
        · exact hpreN x hx'
        · exact htn
        · exact hpostN x hx')]
    rw [ht] at hx
    simpa using hx

/-- `- x ## 1 ;` in the company of `#define x1 7`. -/
example : (MacroSet.run [.defineVar c!"x1" [c!"7"]]).expand asciiEnv 3
    [c!"-", c!"x1", c!";"] = .ok [.punct c!"-", .lit (.int ⟨7, none⟩), .punct c!";"] :=
  C16_paste_joins_spellings_partial asciiEnv asciiEnv_lawful [.defineVar c!"x1" [c!"7"]] [c!"-"]
    [c!";"] c!"x" c!"1" (by decide) (by decide) (by decide) (by decide) 3 _ (by decide +kernel)

/-- `#define CAT(x, y) x ## y` and `#define X 1`. -/
def catHistory : List Op :=
  [.defineFn c!"CAT" [c!"x", c!"y"] [c!"x", c!"##", c!"y"], .defineVar c!"X" [c!"1"]]

/-- **C16** in a call: with `#define f(x, y) x ## y`, arguments `p` and `q` that are one token or
nothing each (and no macros, brackets, comments, backslashes), `f ( p , q )` can only expand to
the token read from the joined spelling; an empty argument contributes nothing, and two empty
arguments give no token. -/
theorem C16_call_joins_arguments (E : Env) (L : E.Lawful) (h : List Op) (f x y : Str)
    (hf : Table.run h f = some (.fn [x, y] [x, c!"##", y])) (hf' : nameOf E f = some f)
    (hg : GoodParams E [x, y]) (p q : List Str) (hp : p.length ≤ 1) (hq : q.length ≤ 1)
    (hts : PlainInput ([f, c!"("] ++ p ++ [c!","] ++ q ++ [c!")"]))
    (hb : ∀ s ∈ p ++ q, ¬ Spec.IsBracket s ∧ s ≠ c!"," ∧ '\\' ∉ s ∧ ¬ c!"/*" <+: s)
    (hD : ∀ s ∈ p ++ q, ∀ id, nameOf E s = some id → Table.run h id = none)
    (hj : p = [] ∨ q = [] ∨ Joinable p.flatten q.flatten)
    (hjD : ∀ id, nameOf E (p.flatten ++ q.flatten) = some id → Table.run h id = none)
    (k : Nat) (toks : List MacroToken)
    (hx : (MacroSet.run h).expand E k ([f, c!"("] ++ p ++ [c!","] ++ q ++ [c!")"]) = .ok toks) :
    toks.map some = if p ++ q = [] then [] else [classify E (p.flatten ++ q.flatten)] :=
  expand_paste_call L (agrees_run h) hf hf' (by have := hg.1; simpa using this)
    (hg.2 x (by simp)) (hg.2 y (by simp)) hp hq hts (fun s hs => ⟨(hb s hs).1, (hb s hs).2.1⟩)
    (fun s hs => (hb s hs).2.2.1) (fun s hs => (hb s hs).2.2.2) hD
    (hj.imp_right (Or.imp_right fun h => ⟨h.1, h.2.1, h.2.2.1⟩)) hjD hx

/-- `CAT ( , ab )` and `CAT ( ab , 12 )`. -/
example : ∃ toks, (MacroSet.run catHistory).expand asciiEnv 4 [c!"CAT", c!"(", c!",", c!"ab", c!")"] =
      .ok toks ∧ toks.map some = [some (.ident c!"ab")] :=
  ⟨_, by decide +kernel,
    (C16_call_joins_arguments asciiEnv asciiEnv_lawful catHistory c!"CAT" c!"x" c!"y" rfl
      (by decide +kernel) ⟨by decide, by decide +kernel⟩ [] [c!"ab"] (by decide) (by decide)
      (by decide) (by simp [Spec.IsBracket]) (by
        intro s hs id hid
        simp only [List.nil_append, List.mem_singleton] at hs
        subst hs
        have : nameOf asciiEnv c!"ab" = some c!"ab" := by decide +kernel
        rw [this] at hid
        simp only [Option.some.injEq] at hid
        subst hid
        decide) (.inl rfl) (by
        intro id hid
        have : nameOf asciiEnv c!"ab" = some c!"ab" := by decide +kernel
        simp only [List.flatten_nil, List.flatten_cons, List.append_nil, List.nil_append] at hid
        rw [this] at hid
        simp only [Option.some.injEq] at hid
        subst hid
        decide) 4 [.ident c!"ab"] (by decide +kernel)).trans (by decide +kernel)⟩

/-! ## C54 -/

/-- **C54**, the full statement: the operands of `##` are not macro-expanded (C11 6.10.3.1).  With
`#define f(x, y) x ## y`, if `f ( p , q )` expands, for identifiers `p`, `q` whose join is not a
macro name, then to the identifier `pq`. -/
def C54_statement : Prop :=
  ∀ (E : Env), E.Lawful → ∀ (h : List Op) (f x y : Str),
    Table.run h f = some (.fn [x, y] [x, c!"##", y]) → nameOf E f = some f →
    GoodParams E [x, y] → ∀ (p q : Str), nameOf E p = some p → nameOf E q = some q →
    '\\' ∉ p → '\\' ∉ q → '\\' ∉ f → p ++ q ≠ c!"__VA_ARGS__" → Table.run h (p ++ q) = none →
    ∀ (k : Nat) (toks : List MacroToken),
      (MacroSet.run h).expand E k [f, c!"(", p, c!",", q, c!")"] = .ok toks →
      toks = [.ident (p ++ q)]

/-- **C54** is false of the code: with `#define X 1`, `CAT ( y , X )` gives `y1`, not `yX`. -/
theorem C54_false : ¬ C54_statement := by
  intro hs
  have := hs asciiEnv asciiEnv_lawful catHistory c!"CAT" c!"x" c!"y" rfl (by decide +kernel)
    ⟨by decide, by decide +kernel⟩ c!"y" c!"X" (by decide +kernel) (by decide +kernel) (by decide)
    (by decide) (by decide) (by decide) (by decide) 4 [.ident c!"y1"] (by decide +kernel)
  revert this
  decide

/-- **C54**, what holds: the full statement for operands that are not macro names. -/
theorem C54_operands_kept_partial (E : Env) (L : E.Lawful) (h : List Op) (f x y : Str)
    (hf : Table.run h f = some (.fn [x, y] [x, c!"##", y])) (hf' : nameOf E f = some f)
    (hg : GoodParams E [x, y]) (p q : Str) (hp : nameOf E p = some p) (hq : nameOf E q = some q)
    (hpe : '\\' ∉ p) (hqe : '\\' ∉ q) (hfe : '\\' ∉ f) (hv : p ++ q ≠ c!"__VA_ARGS__")
    (hD : Table.run h (p ++ q) = none) (hDp : Table.run h p = none) (hDq : Table.run h q = none)
    (k : Nat) (toks : List MacroToken)
    (hx : (MacroSet.run h).expand E k [f, c!"(", p, c!",", q, c!")"] = .ok toks) :
    toks = [.ident (p ++ q)] := by
  have hid : ∀ {s : Str}, nameOf E s = some s → '\\' ∉ s → Spec.IsIdent E.xidStart E.xidContinue s := by
    intro s hs he
    have h1 := nameOf_fromStr hs
    obtain ⟨_, h2⟩ := fromStr_ident.1 h1
    exact ((identTryFrom_noEscape E he s).1 h2).2
  have hpq : '\\' ∉ p ++ q := by simp [hpe, hqe]
  have hjoin := isIdent_append L (hid hp hpe) (isIdent_cont L (hid hq hqe))
  have htok : Token.fromStr E (p ++ q) = .ident (p ++ q) := fromStr_of_ident hpq hv hjoin
  have hname : nameOf E (p ++ q) = some (p ++ q) := by
    obtain ⟨h1, h2⟩ := fromStr_ident.1 htok
    simp [nameOf, h1, h2]
  have hne : ∀ {s t : Str}, nameOf E s = some s → Token.fromStr E t = .punct t → s ≠ t := by
    rintro s t h1 h2 rfl
    have := nameOf_fromStr h1
    rw [h2] at this
    simp at this
  have hplain : ∀ {s : Str}, nameOf E s = some s → '\\' ∉ s →
      Spec.PlainSpelling s ∧ s ≠ c!"__VA_ARGS__" ∧ ¬ Spec.IsBracket s ∧ s ≠ c!"," ∧
      ¬ c!"/*" <+: s := by
    intro s h1 h2
    have hi := hid h1 h2
    refine ⟨⟨?_, hne h1 (fromStr_hashhash L), fun hp => h2 (hp.subset (by decide)),
      fun hp => h2 (hp.subset (by decide))⟩, ?_, fun hb => hne h1 (tok_bracket L hb) rfl,
      hne h1 (tok_comma L), ?_⟩
    · rintro rfl
      simp [Spec.IsIdent, L.startAscii '#' (by decide)] at hi
    · rintro rfl; simp [nameOf] at h1
    · rintro ⟨t, rfl⟩
      simp [Spec.IsIdent, L.startAscii '/' (by decide)] at hi
  have h1 := hplain hp hpe
  have h2 := hplain hq hqe
  have h3 := hplain hf' hfe
  have hhd : ∀ c r, p ++ q = c :: r → E.xidStart c = true ∨ c = '_' := by
    intro c r he
    rw [he] at hjoin
    exact hjoin.1
  have hjj : Joinable p q := by
    refine ⟨hv, ?_, ?_, h2.2.2.2.2⟩
    · intro hm
      have key : ∀ s ∈ Spec.punctuators, ∀ c, s.head? = some c →
          c.toNat < 128 ∧ c.isAlpha = false ∧ c ≠ '_' := by decide
      cases hpq' : p ++ q with
      | nil => rw [hpq'] at hjoin; exact hjoin
      | cons c r =>
        rw [hpq'] at hm
        obtain ⟨k1, k2, k3⟩ := key _ hm c rfl
        rcases hhd c r hpq' with h | h
        · rw [L.startAscii c k1, k2] at h; simp at h
        · exact k3 h
    · rintro ⟨t, ht⟩
      rcases hhd '/' ('*' :: t) ht.symm with h | h
      · rw [L.startAscii '/' (by decide)] at h; simp at h
      · simp at h
  have hres := C16_call_joins_arguments E L h f x y hf hf' hg [p] [q] (by simp) (by simp)
    ⟨by
      intro s hs
      simp only [List.cons_append, List.nil_append, List.mem_cons, List.not_mem_nil, or_false] at hs
      rcases hs with rfl | rfl | rfl | rfl | rfl | rfl
      · exact h3.1
      · decide
      · exact h1.1
      · decide
      · exact h2.1
      · decide, by
      simp only [List.cons_append, List.nil_append, List.mem_cons, List.not_mem_nil, or_false,
        not_or]
      exact ⟨h3.2.1.symm, by decide, h1.2.1.symm, by decide, h2.2.1.symm, by decide⟩⟩
    (by
      intro s hs
      simp only [List.cons_append, List.nil_append, List.mem_cons, List.not_mem_nil, or_false] at hs
      rcases hs with rfl | rfl
      · exact ⟨h1.2.2.1, h1.2.2.2.1, hpe, h1.2.2.2.2⟩
      · exact ⟨h2.2.2.1, h2.2.2.2.1, hqe, h2.2.2.2.2⟩)
    (by
      intro s hs id hi
      simp only [List.cons_append, List.nil_append, List.mem_cons, List.not_mem_nil, or_false] at hs
      rcases hs with rfl | rfl
      · rw [hp] at hi; simp only [Option.some.injEq] at hi; rw [← hi]; exact hDp
      · rw [hq] at hi; simp only [Option.some.injEq] at hi; rw [← hi]; exact hDq)
    (.inr (.inr (by simpa using hjj)))
    (by
      intro id hi
      simp only [List.flatten_cons, List.flatten_nil, List.append_nil] at hi
      rw [hname] at hi
      simp only [Option.some.injEq] at hi
      rw [← hi]; exact hD) k toks hx
  simp only [List.flatten_cons, List.flatten_nil, List.append_nil, classify, htok,
    Token.detokenize] at hres
  cases toks with
  | nil => simp at hres
  | cons t ts =>
    cases ts with
    | nil => simpa using hres
    | cons _ _ => simp at hres

example : (MacroSet.run catHistory).expand asciiEnv 4 [c!"CAT", c!"(", c!"ab", c!",", c!"cd", c!")"] =
      .ok [.ident c!"abcd"] ∧ ∀ k toks,
    (MacroSet.run catHistory).expand asciiEnv k [c!"CAT", c!"(", c!"ab", c!",", c!"cd", c!")"] =
      .ok toks → toks = [.ident c!"abcd"] :=
  ⟨by decide +kernel, C54_operands_kept_partial asciiEnv asciiEnv_lawful catHistory c!"CAT" c!"x"
    c!"y" rfl (by decide +kernel) ⟨by decide, by decide +kernel⟩ c!"ab" c!"cd" (by decide +kernel)
    (by decide +kernel) (by decide) (by decide) (by decide) (by decide) (by decide) (by decide)
    (by decide)⟩

/-! ## C17 -/

/-- **C17**: a variable-like macro whose body, comments aside, starts with `##` is rejected with
`ConcatBegin`; the same goes for text given to `expand`. -/
theorem C17_paste_at_start (E : Env) (L : E.Lawful) (h : List Op) (cs rest : List Str)
    (hc : ∀ s ∈ cs, BlockComment s) (hv : c!"__VA_ARGS__" ∉ rest) (k : Nat) :
    (MacroSet.run h).expand E k (cs ++ c!"##" :: rest) = .error (.err .concatBegin) ∧
    ∀ n, Table.run h n = some (.var (cs ++ c!"##" :: rest)) →
      (MacroSet.run h).expandVar E k n = .error (.err .concatBegin) := by
  have key : ∀ rec names name, expandVarMacroBody E rec names name
      (tokenize E [] (cs ++ c!"##" :: rest)) = .error (.err .concatBegin) := by
    intro rec names name
    have htok : tokenize E [] (cs ++ c!"##" :: rest) = cs.map (Token.fromStr E) ++
        Token.punct c!"##" :: rest.map (Token.fromStr E) := by
      show (cs ++ c!"##" :: rest).map (Token.fromStr E) = _
      rw [List.map_append, List.map_cons, fromStr_hashhash L]
    have hcs : ∀ t ∈ cs.map (Token.fromStr E), ∃ c, t = .comment c := by
      intro t ht
      obtain ⟨s, hs, rfl⟩ := List.mem_map.1 ht
      exact fromStr_blockComment L (hc s hs)
    have hra : ∀ t ∈ rest.map (Token.fromStr E), t.isArg = false := by
      intro t ht
      obtain ⟨s, hs, rfl⟩ := List.mem_map.1 ht
      cases hi : (Token.fromStr E s).isArg with
      | false => rfl
      | true => exact absurd (fromStr_isArg.1 hi ▸ hs) hv
    unfold expandVarMacroBody
    rw [htok, if_neg, expandConcat_begin hcs hra]
    simp only [containsVarArgs, List.any_eq_true, List.mem_append, List.mem_cons,
      decide_eq_true_eq, not_exists, not_and]
    rintro x (hx | hx | hx) rfl
    · obtain ⟨c, hc⟩ := hcs _ hx; simp at hc
    · simp at hx
    · exact absurd (hra _ hx) (by simp [Token.isArg])
  refine ⟨by simp only [MacroSet.expand, key], fun n hn => ?_⟩
  have hg := (agrees_run h n).1
  rw [hn] at hg
  simp only [MacroSet.expandVar, hg, key]

/-- `#define BAD /* join */ ## x`. -/
example : (MacroSet.run [.defineVar c!"BAD" [c!"/* join */", c!"##", c!"x"]]).expandVar asciiEnv 5
    c!"BAD" = .error (.err .concatBegin) :=
  (C17_paste_at_start asciiEnv asciiEnv_lawful [.defineVar c!"BAD" [c!"/* join */", c!"##", c!"x"]]
    [c!"/* join */"] [c!"x"] (by
      intro s hs
      simp only [List.mem_singleton] at hs
      subst hs
      exact ⟨c!" join ", rfl, by decide⟩) (by decide) 5).2 _ (by decide)

/-- **C17**: a variable-like macro whose body, comments aside, ends with `##` never expands
successfully; neither does such text given to `expand`. -/
theorem C17_paste_at_end (E : Env) (L : E.Lawful) (h : List Op) (init cs : List Str)
    (hc : ∀ s ∈ cs, BlockComment s) (k : Nat) :
    (∀ toks, (MacroSet.run h).expand E k (init ++ c!"##" :: cs) ≠ .ok toks) ∧
    ∀ n, Table.run h n = some (.var (init ++ c!"##" :: cs)) →
      ∀ toks, (MacroSet.run h).expandVar E k n ≠ .ok toks := by
  have key : ∀ rec names name r, expandVarMacroBody E rec names name
      (tokenize E [] (init ++ c!"##" :: cs)) ≠ .ok r := by
    intro rec names name r hx
    have htok : tokenize E [] (init ++ c!"##" :: cs) = init.map (Token.fromStr E) ++
        Token.punct c!"##" :: cs.map (Token.fromStr E) := by
      show (init ++ c!"##" :: cs).map (Token.fromStr E) = _
      rw [List.map_append, List.map_cons, fromStr_hashhash L]
    have hcs : ∀ t ∈ cs.map (Token.fromStr E), ∃ c, t = .comment c := by
      intro t ht
      obtain ⟨s, hs, rfl⟩ := List.mem_map.1 ht
      exact fromStr_blockComment L (hc s hs)
    unfold expandVarMacroBody at hx
    rw [htok] at hx
    by_cases hv : c!"__VA_ARGS__" ∈ init
    · rw [if_pos] at hx
      · simp at hx
      · simp only [containsVarArgs, List.any_eq_true, List.mem_append, List.mem_map,
          decide_eq_true_eq]
        exact ⟨_, .inl ⟨_, hv, rfl⟩, fromStr_varArgs.2 rfl⟩
    · split at hx
      · simp at hx
      · split at hx
        · simp at hx
        · rename_i b he
          refine expandConcatGo_end hcs _ [] _ b (by intro t ht; simp at ht) ?_ he
          intro t ht
          obtain ⟨s, hs, rfl⟩ := List.mem_map.1 ht
          exact inside_fromStr (fun he => hv (he ▸ hs))
  refine ⟨fun toks hx => ?_, fun n hn toks hx => ?_⟩
  · unfold MacroSet.expand at hx
    split at hx
    · simp at hx
    · rename_i ts he
      exact key _ _ _ _ he
  · have hg := (agrees_run h n).1
    rw [hn] at hg
    simp only [MacroSet.expandVar, hg] at hx
    split at hx
    · simp at hx
    · rename_i ts he
      exact key _ _ _ _ he

example : ∀ toks, (MacroSet.run [.defineVar c!"BAD" [c!"x", c!"##"]]).expandVar asciiEnv 5
    c!"BAD" ≠ .ok toks :=
  (C17_paste_at_end asciiEnv asciiEnv_lawful [.defineVar c!"BAD" [c!"x", c!"##"]]
    [c!"x"] [] (by simp) 5).2 _ (by decide)

end CMacro
