import Verif.Proofs.Args
import Verif.Props.Calls

/-!
# Properties C19, C20, C21: parameter lists and argument references
-/

namespace CMacro
open Spec (Op Def Table Item BlockComment)

/-- A valid parameter list: different identifiers, then perhaps `...`. -/
def Spec.ValidParams (nameOf : Str → Option Str) (ps : List Str) : Prop :=
  ∃ (named : List Str) (ids : List Str), (ps = named ∨ ps = named ++ [c!"..."]) ∧
    named.map nameOf = ids.map some ∧ ids.Nodup

/-- No spelling starts with a line continuation. -/
def NoContinuation (l : List Str) : Prop := ∀ s ∈ l, ¬ c!"\\\n" <+: s ∧ ¬ c!"\\\r\n" <+: s

instance (l : List Str) : Decidable (NoContinuation l) := by unfold NoContinuation; infer_instance

/-- `#define F(a, b, ...)`, one with a comment in the list, and three wrong ones. -/
def paramHistory : List Op :=
  [.defineFn c!"F" [c!"a", c!"b", c!"..."] [c!"b", c!"+", c!"a", c!",", c!"__VA_ARGS__"],
   .defineFn c!"C" [c!"a", c!"/* c */", c!"..."] [c!"__VA_ARGS__"],
   .defineFn c!"DUP" [c!"a", c!"b", c!"a"] [c!"a"],
   .defineFn c!"NUM" [c!"a", c!"1"] [c!"a"],
   .defineFn c!"LATE" [c!"...", c!"a"] [c!"a"],
   .defineFn c!"G" [c!"x"] [c!"F", c!"(", c!"x", c!",", c!"2", c!",", c!"3", c!")"],
   .defineVar c!"V" [c!"G", c!"(", c!"5", c!")"]]

/-! ## C19 -/

theorem withoutComments_cons_comment {s : Str} {l : List Str} (h : BlockComment s) :
    Spec.withoutComments (s :: l) = Spec.withoutComments l := by
  simp [Spec.withoutComments, List.filter_cons, h]

theorem withoutComments_cons {s : Str} {l : List Str} (h : ¬ BlockComment s) :
    Spec.withoutComments (s :: l) = s :: Spec.withoutComments l := by
  simp [Spec.withoutComments, List.filter_cons, h]

theorem not_blockComment {E : Env} (L : E.Lawful) {s : Str} {t : Token}
    (h : Token.fromStr E s = t) (ht : ∀ c, t ≠ .comment c) : ¬ BlockComment s := by
  intro hb
  obtain ⟨c, hc⟩ := fromStr_blockComment L hb
  exact ht c (h ▸ hc)

theorem tokenizeArgNamesGo_true {E : Env} : ∀ (ss : List Str) (acc names : List Token),
    tokenizeArgNamesGo E true acc ss = .ok names → Spec.withoutComments ss = [] := by
  intro ss
  induction ss with
  | nil => intro _ _ _; rfl
  | cons s ss ih =>
    intro acc names h
    unfold tokenizeArgNamesGo at h
    split at h
    · simp at h
    · split at h <;> simp at h
    · rename_i c hc
      rw [withoutComments_cons_comment (blockComment_of_fromStr hc)]
      exact ih _ _ h
    · simp at h

theorem tokenizeArgNamesGo_valid {E : Env} (L : E.Lawful) : ∀ (ss : List Str)
    (acc names : List Token), NoContinuation ss → tokenizeArgNamesGo E false acc ss = .ok names →
    ∃ (named ids : List Str), (Spec.withoutComments ss = named ∨
      Spec.withoutComments ss = named ++ [c!"..."]) ∧ named.map (nameOf E) = ids.map some ∧
      ids.Nodup ∧ ∀ id ∈ ids, Token.ident id ∉ acc := by
  intro ss
  induction ss with
  | nil => intro acc names _ _; exact ⟨[], [], .inl rfl, rfl, by simp, by simp⟩
  | cons s ss ih =>
    intro acc names hc h
    have hc' : NoContinuation ss := fun x hx => hc x (List.mem_cons_of_mem _ hx)
    unfold tokenizeArgNamesGo at h
    split at h
    · rename_i id hid
      simp only [Bool.false_eq_true, if_false] at h
      split at h
      · simp at h
      · rename_i hnew
        obtain ⟨named, ids, h1, h2, h3, h4⟩ := ih _ _ hc' h
        rw [withoutComments_cons (not_blockComment L hid (by simp))]
        have hn : nameOf E s = some id := by
          obtain ⟨k1, k2⟩ := fromStr_ident.1 hid
          simp [nameOf, k1, k2]
        refine ⟨s :: named, id :: ids, ?_, by simp [hn, h2], ?_, ?_⟩
        · rcases h1 with h1 | h1
          · exact .inl (by rw [h1])
          · exact .inr (by rw [h1]; rfl)
        · refine List.nodup_cons.2 ⟨fun hm => ?_, h3⟩
          exact h4 id hm (by simp)
        · intro id' hm
          rcases List.mem_cons.1 hm with rfl | hm
          · exact hnew
          · exact fun ha => h4 id' hm (List.mem_append_left _ ha)
    · rename_i p hp
      split at h
      · rename_i hd
        simp only [Bool.false_eq_true, if_false] at h
        subst hd
        have := fromStr_punct hp (hc s List.mem_cons_self).1 (hc s List.mem_cons_self).2
        rw [withoutComments_cons (not_blockComment L hp (by simp)),
          tokenizeArgNamesGo_true _ _ _ h, ← this]
        exact ⟨[], [], .inr rfl, rfl, by simp, by simp⟩
      · simp at h
    · rename_i c hcm
      rw [withoutComments_cons_comment (blockComment_of_fromStr hcm)]
      obtain ⟨named, ids, h1, h2, h3, h4⟩ := ih _ _ hc' h
      exact ⟨named, ids, h1, h2, h3, fun id hm ha => h4 id hm (List.mem_append_left _ ha)⟩
    · simp at h

/-- **C19**: a function-like macro whose parameter list, comments aside, is not a list of
different identifiers with an optional final `...` is always rejected, with `InvalidArgumentName`
or `NonUniqueArgument`. -/
theorem C19_invalid_list_rejected (E : Env) (L : E.Lawful) (h : List Op) (f : Str)
    (params body : List Str) (hf : Table.run h f = some (.fn params body))
    (hc : NoContinuation params)
    (hbad : ¬ Spec.ValidParams (nameOf E) (Spec.withoutComments params)) (k : Nat) :
    (MacroSet.run h).expandFn E k f = .error (.err .invalidArgumentName) ∨
    ∃ p, (MacroSet.run h).expandFn E k f = .error (.err (.nonUniqueArgument p)) := by
  have hg := (agrees_run h f).2
  rw [hf] at hg
  simp only [MacroSet.expandFn, hg]
  cases hn : tokenizeArgNames E params with
  | ok names =>
    obtain ⟨named, ids, h1, h2, h3, _⟩ := tokenizeArgNamesGo_valid L _ _ _ hc hn
    exact absurd ⟨named, ids, h1, h2, h3⟩ hbad
  | error e =>
    rcases tokenizeArgNamesGo_error E _ _ _ _ hn with rfl | ⟨p, rfl⟩
    · exact .inl rfl
    · exact .inr ⟨p, rfl⟩

example : (MacroSet.run paramHistory).expandFn asciiEnv 3 c!"NUM" =
      .error (.err .invalidArgumentName) ∨
    ∃ p, (MacroSet.run paramHistory).expandFn asciiEnv 3 c!"NUM" =
      .error (.err (.nonUniqueArgument p)) :=
  C19_invalid_list_rejected asciiEnv asciiEnv_lawful paramHistory c!"NUM" [c!"a", c!"1"] [c!"a"]
    (by decide) (by decide) (by
      rintro ⟨named, ids, h | h, h2, _⟩
      · have : nameOf asciiEnv c!"1" ∈ ids.map some := by
          rw [← h2, ← h]; exact List.mem_map_of_mem (by decide)
        rw [show nameOf asciiEnv c!"1" = none by decide +kernel] at this
        simp at this
      · have := congrArg List.getLast? h
        rw [show (Spec.withoutComments [c!"a", c!"1"]).getLast? = some c!"1" by decide] at this
        simp at this) 3

theorem tokenizeArgNamesGo_duplicate {E : Env} (L : E.Lawful) : ∀ (ss : List Str) (acc : List Str)
    (ids : List Str) (tail : List Str), (Spec.withoutComments ss).map (nameOf E) = ids.map some →
    acc.Nodup → ¬ (acc ++ ids).Nodup → ∀ accTok : List Token,
    (∀ id, Token.ident id ∈ accTok ↔ id ∈ acc) →
    ∃ p, tokenizeArgNamesGo E false accTok (ss ++ tail) = .error (.err (.nonUniqueArgument p)) ∧
      2 ≤ (acc ++ ids).count p := by
  intro ss
  induction ss with
  | nil =>
    intro acc ids tail h hnd hdup accTok _
    cases ids with
    | nil => simp at hdup; exact absurd hnd hdup
    | cons _ _ => simp [Spec.withoutComments] at h
  | cons s ss ih =>
    intro acc ids tail h hnd hdup accTok hacc
    by_cases hb : BlockComment s
    · rw [withoutComments_cons_comment hb] at h
      obtain ⟨c, hc⟩ := fromStr_blockComment L hb
      rw [List.cons_append, tokenizeArgNamesGo, hc]
      exact ih acc ids tail h hnd hdup _ (by
        intro x
        simp only [List.mem_append, hacc, List.mem_singleton, reduceCtorEq, or_false])
    · rw [withoutComments_cons hb] at h
      cases ids with
      | nil => simp at h
      | cons id ids =>
        simp only [List.map_cons, List.cons.injEq] at h
        have hid := nameOf_fromStr h.1
        rw [List.cons_append, tokenizeArgNamesGo, hid]
        simp only [Bool.false_eq_true, if_false]
        by_cases hm : id ∈ acc
        · rw [if_pos ((hacc id).2 hm)]
          refine ⟨id, rfl, ?_⟩
          rw [List.count_append, List.count_cons_self]
          have := List.count_pos_iff.2 hm
          omega
        · rw [if_neg (fun hc => hm ((hacc id).1 hc))]
          have h1 : (acc ++ [id]).Nodup := by
            rw [List.nodup_append]
            refine ⟨hnd, by simp, ?_⟩
            rintro a ha b hb rfl
            simp only [List.mem_singleton] at hb
            exact hm (hb ▸ ha)
          obtain ⟨p, hp1, hp2⟩ := ih (acc ++ [id]) ids tail h.2 h1 (by simpa using hdup)
            (accTok ++ [.ident id]) (by
              intro x
              simp only [List.mem_append, hacc, List.mem_singleton, Token.ident.injEq])
          exact ⟨p, hp1, by simpa using hp2⟩

/-- **C19**: if the entries are identifiers (comments aside, perhaps with a final `...`) and two of
them are the same, the error names one that occurs twice. -/
theorem C19_duplicate_named (E : Env) (L : E.Lawful) (h : List Op) (f : Str)
    (params tail body : List Str) (hf : Table.run h f = some (.fn (params ++ tail) body))
    (ids : List Str) (hids : (Spec.withoutComments params).map (nameOf E) = ids.map some)
    (hdup : ¬ ids.Nodup) (k : Nat) :
    ∃ p, (MacroSet.run h).expandFn E k f = .error (.err (.nonUniqueArgument p)) ∧
      2 ≤ ids.count p := by
  have hg := (agrees_run h f).2
  rw [hf] at hg
  obtain ⟨p, h1, h2⟩ := tokenizeArgNamesGo_duplicate L params [] ids tail hids (by simp)
    (by simpa using hdup) [] (by simp)
  refine ⟨p, ?_, by simpa using h2⟩
  simp only [MacroSet.expandFn, hg]
  rw [show tokenizeArgNames E (params ++ tail) = _ from h1]

example : ∃ p, (MacroSet.run paramHistory).expandFn asciiEnv 3 c!"DUP" =
      .error (.err (.nonUniqueArgument p)) ∧ 2 ≤ [c!"a", c!"b", c!"a"].count p :=
  C19_duplicate_named asciiEnv asciiEnv_lawful paramHistory c!"DUP" [c!"a", c!"b", c!"a"] [] [c!"a"]
    (by decide) _ (by decide +kernel) (by decide) 3

/-! ## C20 -/

/-- The entries of a returned parameter list that are parameters. -/
def realParams (as : List MacroToken) : List MacroToken :=
  as.filter fun a => match a with | .comment _ => false | _ => true

/-- **C20**, the full statement: argument references in the result of `expand_fn_macro` are smaller
than the number of parameters. -/
def C20_statement : Prop :=
  ∀ (E : Env), E.Lawful → ∀ (h : List Op) (f : Str) (k : Nat) (as toks : List MacroToken),
    (MacroSet.run h).expandFn E k f = .ok (as, toks) →
    ∀ i, MacroToken.arg i ∈ toks → i < (realParams as).length

/-- **C20** is false of the code: with `#define C(a, /* c */ ...) __VA_ARGS__` the body is
argument 2 of 2. -/
theorem C20_false : ¬ C20_statement := by
  intro hs
  have := hs asciiEnv asciiEnv_lawful paramHistory c!"C" 3
    [.ident c!"a", .comment c!" c ", .punct c!"..."] [.arg 2] (by decide +kernel) 2 (by simp)
  revert this
  decide

/-- **C20**, what holds: the full statement for parameter lists without comments, and in general
for the number of entries, comments included. -/
theorem C20_references_in_range_partial (E : Env) (h : List Op) (f : Str) (k : Nat)
    (as toks : List MacroToken) (hx : (MacroSet.run h).expandFn E k f = .ok (as, toks)) :
    (∀ i, MacroToken.arg i ∈ toks → i < as.length) ∧
    ((∀ c, MacroToken.comment c ∉ as) → ∀ i, MacroToken.arg i ∈ toks →
      i < (realParams as).length) := by
  have key : ∀ i, MacroToken.arg i ∈ toks → i < as.length := by
    intro i hi
    unfold MacroSet.expandFn at hx
    split at hx
    · simp at hx
    · rename_i params body hg
      split at hx
      · simp at hx
      · rename_i names hn
        split at hx
        · simp at hx
        · rename_i ts hts
          split at hx
          · simp at hx
          · rename_i toks' hd
            split at hx
            · simp at hx
            · rename_i as' ha
              simp only [Except.ok.injEq, Prod.mk.injEq] at hx
              obtain ⟨rfl, rfl⟩ := hx
              have hpt := tokenizeArgNamesGo_tok _ _ _ _ AllTok.nil hn
              obtain ⟨hlen, _⟩ := detokenize_params hpt ha
              have H := bounded_stepInv E (MacroSet.run h) (names.filter Token.isNotComment).length
                True
              have hsat := expandFnMacroBody_none_sat H (n := k) (names := []) (name := f)
                (argNames := names) (b := tokenize E names body) (by
                  intro _ t ht
                  obtain ⟨s, _, rfl⟩ := List.mem_map.1 ht
                  have := tokenizeOne_bounded (E := E) hpt s
                  exact ⟨this.1, fun _ => trivial⟩)
              rw [hts] at hsat
              have hfl : (names.filter Token.isNotComment).length ≤ names.length :=
                List.length_filter_le _ _
              rcases detokenize_arg hd hi with ⟨t, ht, hs⟩ | ⟨h1, h2, _⟩
              · have := (hsat t ht).1 i hs
                omega
              · omega
  refine ⟨key, fun hc i hi => ?_⟩
  have : realParams as = as := by
    unfold realParams
    rw [List.filter_eq_self]
    intro a ha
    cases a with
    | comment c => exact absurd ha (hc c)
    | _ => rfl
  rw [this]
  exact key i hi

example : ∀ i, MacroToken.arg i ∈ [MacroToken.arg 1, .punct c!"+", .arg 0, .punct c!",", .arg 2] →
    i < (realParams [.ident c!"a", .ident c!"b", .punct c!"..."]).length :=
  (C20_references_in_range_partial asciiEnv paramHistory c!"F" 3 _ _ (by decide +kernel)).2
    (by simp)

/-- What a spelling in the body of a function-like macro stands for. -/
def bodyRef (E : Env) (named : List Str) (s : Str) : Option MacroToken :=
  match Spec.paramIndex named s with
  | some i => some (.arg i)
  | none => if s = c!"__VA_ARGS__" then some (.arg named.length) else classify E s

/-- **C20**: in a body without other macros and without `#`, each parameter becomes the reference
to its position, `__VA_ARGS__` the reference to the final `...`, and everything else stays. -/
theorem C20_parameters_numbered (E : Env) (L : E.Lawful) (h : List Op) (f : Str)
    (named body : List Str) (variadic : Bool)
    (hf : Table.run h f = some (.fn (named ++ if variadic then [c!"..."] else []) body))
    (hp : GoodParams E named) (hb : ∀ s ∈ body, Spec.PlainSpelling s)
    (hbv : c!"__VA_ARGS__" ∈ body → variadic = true)
    (hbn : ∀ s ∈ body, s ∉ named → ∀ id, nameOf E s = some id → Table.run h id = none)
    (toks : List MacroToken) (hr : body.map (bodyRef E named) = toks.map some) :
    Returns (fun k => (MacroSet.run h).expandFn E k f)
      (.ok (named.map .ident ++ (if variadic then [.punct c!"..."] else []), toks)) := by
  let tail : List Token := if variadic then [.punct c!"..."] else []
  have htail : tail = [] ∨ tail = [.punct c!"..."] := by
    cases variadic <;> simp [tail]
  have hnames : tokenizeArgNames E (named ++ if variadic then [c!"..."] else []) =
      .ok (named.map Token.ident ++ tail) := by
    cases variadic with
    | false => simpa [tail] using tokenizeArgNames_named hp.1 hp.2
    | true => simpa [tail] using tokenizeArgNames_variadic L hp.1 hp.2
  have hg := (agrees_run h f).2
  rw [hf] at hg
  have hdots : c!"..." ∉ named := by
    intro hm
    have := nameOf_fromStr (hp.2 _ hm)
    rw [fromStr_ellipsis L] at this
    simp at this
  have hone := fun s => tokenizeOne_params (E := E) named s tail htail
  have hin : InertTok (MacroSet.run h) (setInsert [] f)
      (tokenize E (named.map Token.ident ++ tail) body) := by
    intro id hid
    obtain ⟨s, hs, he⟩ := List.mem_map.1 hid
    rw [hone] at he
    split at he
    · simp at he
    · rename_i hpi
      have hn : nameOf E s = some id := by
        obtain ⟨k1, k2⟩ := fromStr_ident.1 he
        simp [nameOf, k1, k2]
      have hD := hbn s hs (paramIndex_none.1 hpi) id hn
      obtain ⟨g1, g2⟩ := agrees_run h id
      rw [hD] at g1 g2
      refine ⟨?_, g2, g1⟩
      simp only [setInsert, List.not_mem_nil, if_false, List.mem_singleton]
      rintro rfl
      rw [hf] at hD
      simp at hD
  have hnocat : ∀ t ∈ tokenize E (named.map Token.ident ++ tail) body, t ≠ .punct c!"##" := by
    intro t ht he
    obtain ⟨s, hs, rfl⟩ := List.mem_map.1 ht
    rw [hone] at he
    split at he
    · simp at he
    · have hps := hb s hs
      exact hps.2.1 (fromStr_punct he hps.2.2.1 hps.2.2.2).symm
  have hnopm : removePlacemarkers (tokenize E (named.map Token.ident ++ tail) body) =
      tokenize E (named.map Token.ident ++ tail) body := by
    unfold removePlacemarkers
    rw [List.filter_eq_self]
    intro t ht
    obtain ⟨s, hs, rfl⟩ := List.mem_map.1 ht
    rw [hone]
    split
    · simp
    · simpa using fromStr_ne_placemarker E s
  have hbody : expandFnMacroBody E (expandMacroBody E (MacroSet.run h) 1) [] f
      (named.map Token.ident ++ tail) none (tokenize E (named.map Token.ident ++ tail) body) =
      .ok (tokenize E (named.map Token.ident ++ tail) body) := by
    unfold expandFnMacroBody
    simp only [filter_notComment _ _ htail]
    rw [if_neg, if_neg, filterMap_paramName, firstDuplicate_none]
    · simp only
      rw [expandConcat_noop hnocat]
      simp only [hnopm]
      exact expandMacroBody_inert hin 1 (by omega)
    · rcases htail with h | h
      · rw [h]; simpa using hp.1
      · rw [h]
        simp only [List.filterMap_cons, Token.paramName, List.filterMap_nil]
        rw [List.nodup_append]
        refine ⟨hp.1, by simp, fun a ha' b hb' hab => ?_⟩
        simp only [List.mem_singleton] at hb'
        exact hdots (hb' ▸ hab ▸ ha')
    · simp
    · intro hc
      simp only [Bool.and_eq_true, Bool.not_eq_true'] at hc
      have hnv : c!"__VA_ARGS__" ∉ body := by
        intro hm
        have := hbv hm
        subst this
        simp [tail, isVariadic] at hc
      rw [containsVarArgs_false htail hnv] at hc
      simp at hc
  have hlen : (named.map Token.ident ++ tail).length = named.length + if variadic then 1 else 0 := by
    cases variadic <;> simp [tail]
  have hdet : detokenize (named.map Token.ident ++ tail).length
      (tokenize E (named.map Token.ident ++ tail) body) = .ok toks := by
    apply detokenize_map
    rw [tokenize, List.map_map]
    have : toks.map (fun m => (Except.ok (some m) : Res (Option MacroToken))) =
        (toks.map some).map Except.ok := by simp
    rw [this, ← hr, List.map_map]
    apply List.map_congr_left
    intro s hs
    have hsome : bodyRef E named s ∈ toks.map some := by
      rw [← hr]; exact List.mem_map_of_mem hs
    simp only [Function.comp, hone, bodyRef] at hsome ⊢
    cases hpi : Spec.paramIndex named s with
    | some i => rfl
    | none =>
      rw [hpi] at hsome
      simp only at hsome ⊢
      by_cases hv : s = c!"__VA_ARGS__"
      · rw [if_pos hv, fromStr_varArgs.2 hv, Token.detokenize]
        have := hbv (hv ▸ hs)
        subst this
        rw [hlen]
        simp
      · rw [if_neg hv] at hsome ⊢
        obtain ⟨m, _, hm⟩ := List.mem_map.1 hsome
        have hna : (Token.fromStr E s).isArg = false := by
          cases hi : (Token.fromStr E s).isArg with
          | false => rfl
          | true => exact absurd (fromStr_isArg.1 hi) hv
        unfold classify at hm ⊢
        have hnr := fromStr_ne_nonRepl E s
        generalize Token.fromStr E s = t at *
        cases t with
        | nonRepl t => exact absurd rfl (hnr t)
        | plain x => simp [Token.detokenize] at hm
        | varArgs => simp [Token.isArg] at hna
        | _ => rfl
  have hpar : detokenize 0 (named.map Token.ident ++ tail) =
      .ok (named.map MacroToken.ident ++ (if variadic then [.punct c!"..."] else [])) := by
    apply detokenize_map
    cases variadic <;> simp [tail, Token.detokenize]
  refine ⟨by simp, 1, ?_⟩
  simp only [MacroSet.expandFn, hg, hnames, hbody, hdet, hpar]

/-- `#define F(a, b, ...) b + a , __VA_ARGS__`. -/
example : Returns (fun k => (MacroSet.run paramHistory).expandFn asciiEnv k c!"F")
    (.ok ([.ident c!"a", .ident c!"b", .punct c!"..."],
      [.arg 1, .punct c!"+", .arg 0, .punct c!",", .arg 2])) :=
  C20_parameters_numbered asciiEnv asciiEnv_lawful paramHistory c!"F" [c!"a", c!"b"]
    [c!"b", c!"+", c!"a", c!",", c!"__VA_ARGS__"] true (by decide) ⟨by decide, by decide +kernel⟩
    (by decide) (by decide) (body_of_check (by decide +kernel)) _ (by decide +kernel)

/-! ## C21 -/

/-- **C21**: the result of `expand` or `expand_var_macro` never contains an argument reference. -/
theorem C21_no_argument_references (E : Env) (h : List Op) :
    (∀ k ts toks, (MacroSet.run h).expand E k ts = .ok toks → ∀ i, MacroToken.arg i ∉ toks) ∧
    (∀ k n toks, (MacroSet.run h).expandVar E k n = .ok toks → ∀ i, MacroToken.arg i ∉ toks) := by
  have key : ∀ {k name b toks}, (match expandVarMacroBody E (expandMacroBody E (MacroSet.run h) k)
      [] name (tokenize E [] b) with
      | .error e => Except.error e
      | .ok ts => CMacro.detokenize 0 ts) = .ok toks → ∀ i, MacroToken.arg i ∉ toks := by
    intro k name b toks hx i hi
    split at hx
    · simp at hx
    · rename_i ts hts
      have := expandVarMacroBody_bounded hts
      rcases detokenize_arg hx hi with ⟨t, ht, hs⟩ | ⟨_, h2, _⟩
      · have := this t ht; rw [hs] at this; simp [Token.isArg] at this
      · exact h2 rfl
  refine ⟨fun k ts toks hx => key hx, fun k n toks hx => ?_⟩
  unfold MacroSet.expandVar at hx
  split at hx
  · simp at hx
  · exact key hx

/-- `V` calls `G`, which calls `F`. -/
example : (MacroSet.run paramHistory).expandVar asciiEnv 6 c!"V" =
      .ok [.lit (.int ⟨2, none⟩), .punct c!"+", .lit (.int ⟨5, none⟩), .punct c!",",
        .lit (.int ⟨3, none⟩)] ∧
    ∀ i, MacroToken.arg i ∉ [MacroToken.lit (.int ⟨2, none⟩), .punct c!"+", .lit (.int ⟨5, none⟩),
        .punct c!",", .lit (.int ⟨3, none⟩)] :=
  ⟨by decide +kernel, (C21_no_argument_references asciiEnv paramHistory).2 6 c!"V" _
    (by decide +kernel)⟩

end CMacro
