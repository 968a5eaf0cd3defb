import Verif.Props.Params
import Verif.Model.ParseStmt
import Verif.Proofs.Parser

/-!
# Property C45: from `expand_fn_macro` to `FnMacro::parse`
-/

namespace CMacro
open Parser
open Spec (Op Def Table Item BlockComment)

/-- The parameter names of a list of tokens. -/
def idsOf : List MacroToken → List Str
  | .ident id :: ts => id :: idsOf ts
  | _ :: ts => idsOf ts
  | [] => []

/-- Only identifiers and comments. -/
def IdsAndComments (ts : List MacroToken) : Prop := ∀ t ∈ ts, (∃ id, t = .ident id) ∨ ∃ c, t = .comment c

/-- Only comments. -/
def Comments (ts : List MacroToken) : Prop := ∀ t ∈ ts, ∃ c, t = .comment c

/-- The list does not start with a comment. -/
def NoComment (ts : List MacroToken) : Prop := ∀ c, ts.head? ≠ some (.comment c)

theorem one_shrinks {α : Type} (f : MacroToken → Option α) : Shrinks (Parser.mapOpt takeOne f) :=
  .mapOpt (.satisfy _) _

theorem comment_shrinks : Shrinks comment := one_shrinks _

theorem meta_run {cs ts : List MacroToken} (hc : Comments cs) (ht : NoComment ts) : ∃ x, «meta» (cs ++ ts) = some (x, ts) := by
  induction cs with
  | nil =>
    refine ⟨[], ?_⟩
    unfold «meta»
    rw [many0_eq comment_shrinks]
    have : comment ([] ++ ts) = none := by
      cases ts with
      | nil => rfl
      | cons t ts =>
        cases t <;> first | rfl | exact absurd rfl (ht _)
    rw [this]
    rfl
  | cons c cs ih =>
    obtain ⟨x, hx⟩ := ih fun t h => hc t (List.mem_cons_of_mem _ h)
    obtain ⟨s, rfl⟩ := hc c List.mem_cons_self
    refine ⟨s :: x, ?_⟩
    unfold «meta» at hx ⊢
    rw [many0_eq comment_shrinks]
    have : comment (.comment s :: cs ++ ts) = some (s, cs ++ ts) := rfl
    rw [this]
    simp only [List.cons_append, List.length_cons, hx]
    rw [if_neg (by omega)]

theorem meta_all {cs : List MacroToken} (hc : Comments cs) : ∃ x, «meta» cs = some (x, []) := by
  have := meta_run (ts := []) hc (by intro c h; cases h)
  rwa [List.append_nil] at this

theorem argItem_shrinks : Shrinks (preceded «meta» macroId) :=
  .preceded (.many0 (one_shrinks _)) (one_shrinks _)

theorem argItem_none {cs ts : List MacroToken} (hc : Comments cs) (ht : NoComment ts) (hi : ∀ id, ts.head? ≠ some (.ident id)) :
    preceded «meta» macroId (cs ++ ts) = none := by
  obtain ⟨x, hx⟩ := meta_run hc ht
  have : macroId ts = none := by
    cases ts with
    | nil => rfl
    | cons t ts => cases t <;> first | rfl | exact absurd rfl (hi _)
  simp [preceded, Parser.map, Parser.seq, hx, this]

theorem argItem_some {cs ts : List MacroToken} (hc : Comments cs) (id : Str) :
    preceded «meta» macroId (cs ++ .ident id :: ts) = some (id, ts) := by
  obtain ⟨x, hx⟩ := meta_run (ts := .ident id :: ts) hc (by intro c h; cases h)
  have : macroId (.ident id :: ts) = some (id, ts) := rfl
  simp [preceded, Parser.map, Parser.seq, hx, this]

theorem args_run {tail : List MacroToken} (ht : NoComment tail) (hi : ∀ id, tail.head? ≠ some (.ident id)) :
    ∀ (xs : List MacroToken), IdsAndComments xs → ∀ (cs : List MacroToken), Comments cs →
      ∃ cs', Comments cs' ∧ many0 (preceded «meta» macroId) (cs ++ (xs ++ tail)) = some (idsOf xs, cs' ++ tail)
  | [], _, cs, hc => by
    refine ⟨cs, hc, ?_⟩
    rw [many0_eq argItem_shrinks, List.nil_append, argItem_none hc ht hi]
    rfl
  | x :: xs, hx, cs, hc => by
    have hxs : IdsAndComments xs := fun t h => hx t (List.mem_cons_of_mem _ h)
    rcases hx x List.mem_cons_self with ⟨id, rfl⟩ | ⟨c, rfl⟩
    · obtain ⟨cs', h1, h2⟩ := args_run ht hi xs hxs [] (by intro t h; cases h)
      refine ⟨cs', h1, ?_⟩
      rw [many0_eq argItem_shrinks, List.cons_append, argItem_some hc]
      simp only [List.nil_append] at h2
      simp only [h2]
      rw [if_neg (by simp; omega)]
      rfl
    · obtain ⟨cs', h1, h2⟩ := args_run ht hi xs hxs (cs ++ [.comment c]) (by
        intro t h
        rcases List.mem_append.1 h with h | h
        · exact hc t h
        · exact ⟨c, by simpa using h⟩)
      refine ⟨cs', h1, ?_⟩
      simpa [idsOf] using h2

theorem Comments.snoc {cs : List MacroToken} (hc : Comments cs) (c : Str) :
    Comments (cs ++ [.comment c]) := by
  intro t h
  rcases List.mem_append.1 h with h | h
  · exact hc t h
  · exact ⟨c, by simpa using h⟩

theorem comments_nil : Comments [] := fun _ h => by cases h

theorem idsAndComments_nil : IdsAndComments [] := fun _ h => by cases h

theorem dots_none {tail : List MacroToken} : ∀ (xs : List MacroToken), IdsAndComments xs →
    (idsOf xs = [] → tail = []) → ∀ (cs : List MacroToken), Comments cs →
    preceded «meta» (punct c!"...") (cs ++ (xs ++ tail)) = none
  | [], _, h, cs, hc => by
    obtain ⟨y, h3⟩ := meta_all hc
    have : punct c!"..." ([] : List MacroToken) = none := rfl
    simp [h rfl, preceded, Parser.map, Parser.seq, h3, this]
  | x :: xs, hx, h, cs, hc => by
    have hxs : IdsAndComments xs := fun t h => hx t (List.mem_cons_of_mem _ h)
    rcases hx x List.mem_cons_self with ⟨id, rfl⟩ | ⟨c, rfl⟩
    · obtain ⟨y, h3⟩ := meta_run (ts := .ident id :: (xs ++ tail)) hc (by intro c h; cases h)
      have : punct c!"..." (.ident id :: (xs ++ tail)) = none := rfl
      simp [preceded, Parser.map, Parser.seq, h3, this]
    · have := dots_none xs hxs h (cs ++ [.comment c]) (hc.snoc c)
      rwa [List.append_assoc] at this

theorem comments_of_idsOf : ∀ {xs : List MacroToken}, IdsAndComments xs → idsOf xs = [] → Comments xs
  | [], _, _ => comments_nil
  | x :: xs, hx, h => by
    have hxs : IdsAndComments xs := fun t h => hx t (List.mem_cons_of_mem _ h)
    rcases hx x List.mem_cons_self with ⟨id, rfl⟩ | ⟨c, rfl⟩
    · cases h
    · intro t ht
      rcases List.mem_cons.1 ht with rfl | ht
      · exact ⟨c, rfl⟩
      · exact comments_of_idsOf hxs h t ht

theorem parseArgs_plain {xs : List MacroToken} (hx : IdsAndComments xs) :
    FnMacro.parseArgs xs = some (idsOf xs, []) := by
  obtain ⟨cs, h1, h2⟩ := args_run (tail := []) (by intro c h; cases h) (by intro c h; cases h) xs hx
    [] comments_nil
  obtain ⟨y, h3⟩ := meta_all h1
  simp only [List.nil_append, List.append_nil] at h2
  have h4 : preceded «meta» (punct c!"...") xs = none := by
    simpa using dots_none (tail := []) xs hx (fun _ => rfl) [] comments_nil
  have h5 : preceded «meta» (opt (punct c!"...")) cs = some (none, []) := by
    have : opt (punct c!"...") ([] : List MacroToken) = some (none, []) := rfl
    simp [preceded, Parser.map, Parser.seq, h3, this]
  have h6 : «meta» ([] : List MacroToken) = some ([], []) := by decide +kernel
  simp [FnMacro.parseArgs, allConsuming, terminated, Parser.or, Parser.map, Parser.seq, h4, h2, h5,
    h6]

theorem parseArgs_variadic {xs cs : List MacroToken} (hx : IdsAndComments xs) (hc : Comments cs) :
    FnMacro.parseArgs (xs ++ .punct c!"..." :: cs) = some (idsOf xs ++ [c!"..."], []) := by
  obtain ⟨z, hz⟩ := meta_all hc
  have hp : punct c!"..." (.punct c!"..." :: cs) = some ((), cs) := rfl
  have hnc : NoComment (.punct c!"..." :: cs) := by intro c h; cases h
  by_cases hi : idsOf xs = []
  · obtain ⟨y, hy⟩ := meta_run (comments_of_idsOf hx hi) hnc
    have h4 : preceded «meta» (punct c!"...") (xs ++ .punct c!"..." :: cs) = some ((), cs) := by
      simp [preceded, Parser.map, Parser.seq, hy, hp]
    simp [FnMacro.parseArgs, allConsuming, terminated, Parser.or, Parser.map, Parser.seq, h4, hz, hi]
  · obtain ⟨cs', h1, h2⟩ := args_run hnc (by intro c h; cases h) xs hx [] comments_nil
    obtain ⟨y, h3⟩ := meta_run h1 hnc
    simp only [List.nil_append] at h2
    have h4 : preceded «meta» (punct c!"...") (xs ++ .punct c!"..." :: cs) = none := by
      simpa using dots_none xs hx (fun h => absurd h hi) [] comments_nil
    have h5 : preceded «meta» (opt (punct c!"...")) (cs' ++ .punct c!"..." :: cs) =
        some (some (), cs) := by
      have : opt (punct c!"...") (.punct c!"..." :: cs) = some (some (), cs) := rfl
      simp [preceded, Parser.map, Parser.seq, h3, this]
    simp [FnMacro.parseArgs, allConsuming, terminated, Parser.or, Parser.map, Parser.seq, h4, h2, h5,
      hz]

theorem tokenizeArgNamesGo_comments {E : Env} : ∀ (ss : List Str) (acc names : List Token),
    tokenizeArgNamesGo E true acc ss = .ok names →
    ∃ cs : List Str, names = acc ++ cs.map .comment
  | [], acc, names, h => ⟨[], by simpa [tokenizeArgNamesGo, eq_comm] using h⟩
  | s :: ss, acc, names, h => by
    unfold tokenizeArgNamesGo at h
    split at h
    · simp at h
    · split at h <;> simp at h
    · rename_i c hc
      obtain ⟨cs, hcs⟩ := tokenizeArgNamesGo_comments ss _ _ h
      exact ⟨c :: cs, by simp [hcs]⟩
    · simp at h

theorem detokenize_comments (n : Nat) : ∀ cs : List Str,
    detokenize n (cs.map .comment) = .ok (cs.map .comment)
  | [] => rfl
  | c :: cs => by
    simp [detokenize, Token.detokenize, detokenize_comments n cs, bind, Except.bind]

/-- The parameter list as it reaches `FnMacro::parse`. -/
theorem tokenizeArgNamesGo_parse {E : Env} (L : E.Lawful) : ∀ (ss : List Str)
    (acc names : List Token), NoContinuation ss → tokenizeArgNamesGo E false acc ss = .ok names →
    ∃ (ts : List Token) (xs tail : List MacroToken) (named : List Str) (dots : List Str),
      names = acc ++ ts ∧ detokenize 0 ts = .ok (xs ++ tail) ∧ IdsAndComments xs ∧
      (tail = [] ∧ dots = [] ∨
        (∃ cs, Comments cs ∧ tail = .punct c!"..." :: cs) ∧ dots = [c!"..."]) ∧
      Spec.withoutComments ss = named ++ dots ∧ named.map (nameOf E) = (idsOf xs).map some := by
  intro ss
  induction ss with
  | nil =>
    intro acc names _ h
    refine ⟨[], [], [], [], [], ?_, rfl, idsAndComments_nil, .inl ⟨rfl, rfl⟩, rfl, rfl⟩
    simpa [tokenizeArgNamesGo, eq_comm] using h
  | cons s ss ih =>
    intro acc names hc h
    have hc' : NoContinuation ss := fun x hx => hc x (List.mem_cons_of_mem _ hx)
    unfold tokenizeArgNamesGo at h
    split at h
    · rename_i id hid
      simp only [Bool.false_eq_true, if_false] at h
      split at h
      · simp at h
      · obtain ⟨ts, xs, tail, named, dots, h1, h2, h3, h4, h5, h6⟩ := ih _ _ hc' h
        have hn : nameOf E s = some id := by
          obtain ⟨k1, k2⟩ := fromStr_ident.1 hid
          simp [nameOf, k1, k2]
        refine ⟨.ident id :: ts, .ident id :: xs, tail, s :: named, dots, by simp [h1], ?_, ?_, h4,
          ?_, ?_⟩
        · simp [detokenize, Token.detokenize, h2, bind, Except.bind]
        · intro t ht
          rcases List.mem_cons.1 ht with rfl | ht
          · exact .inl ⟨id, rfl⟩
          · exact h3 t ht
        · rw [withoutComments_cons (not_blockComment L hid (by simp)), h5]; rfl
        · simp [hn, h6, idsOf]
    · rename_i p hp
      split at h
      · rename_i hd
        simp only [Bool.false_eq_true, if_false] at h
        subst hd
        have := fromStr_punct hp (hc s List.mem_cons_self).1 (hc s List.mem_cons_self).2
        obtain ⟨cs, hcs⟩ := tokenizeArgNamesGo_comments _ _ _ h
        refine ⟨.punct c!"..." :: cs.map .comment, [], .punct c!"..." :: cs.map .comment, [],
          [c!"..."], by simp [hcs], ?_, idsAndComments_nil, .inr ⟨⟨cs.map .comment, ?_, rfl⟩, rfl⟩,
          ?_, rfl⟩
        · simp [detokenize, Token.detokenize, detokenize_comments, bind, Except.bind]
        · intro t ht
          obtain ⟨c, _, rfl⟩ := List.mem_map.1 ht
          exact ⟨c, rfl⟩
        · rw [withoutComments_cons (not_blockComment L hp (by simp)),
            tokenizeArgNamesGo_true _ _ _ h, ← this]; rfl
      · simp at h
    · rename_i c hcm
      obtain ⟨ts, xs, tail, named, dots, h1, h2, h3, h4, h5, h6⟩ := ih _ _ hc' h
      refine ⟨.comment c :: ts, .comment c :: xs, tail, named, dots, by simp [h1], ?_, ?_, h4,
        ?_, ?_⟩
      · simp [detokenize, Token.detokenize, h2, bind, Except.bind]
      · intro t ht
        rcases List.mem_cons.1 ht with rfl | ht
        · exact .inr ⟨c, rfl⟩
        · exact h3 t ht
      · rw [withoutComments_cons_comment (blockComment_of_fromStr hcm), h5]
      · simpa [idsOf] using h6
    · simp at h

/-- **C45**: whatever parameter list `expand_fn_macro` returns, `FnMacro::parse` does not reject it,
and the parsed macro has exactly the defined parameter names in order, comments removed, with `...`
last if and only if the definition ends in it. -/
theorem C45_parameters_reach_parse (E : Env) (L : E.Lawful) (h : List Op) (f : Str)
    (params body : List Str) (hf : Table.run h f = some (.fn params body))
    (hc : NoContinuation params) (k : Nat) (as toks : List MacroToken)
    (hx : (MacroSet.run h).expandFn E k f = .ok (as, toks)) :
    ∃ (named ids dots : List Str), Spec.withoutComments params = named ++ dots ∧
      (dots = [] ∨ dots = [c!"..."]) ∧ named.map (nameOf E) = ids.map some ∧
      ∀ (name : Str) (b : List MacroToken),
        FnMacro.parse E name as b ≠ .error .invalidMacroArgs ∧
        ∀ m, FnMacro.parse E name as b = .ok m → m.args = ids ++ dots := by
  have hg := (agrees_run h f).2
  rw [hf] at hg
  simp only [MacroSet.expandFn, hg] at hx
  split at hx
  · simp at hx
  · rename_i names hn
    split at hx
    · simp at hx
    · split at hx
      · simp at hx
      · split at hx
        · simp at hx
        · rename_i as' ha
          simp only [Except.ok.injEq, Prod.mk.injEq] at hx
          obtain ⟨rfl, rfl⟩ := hx
          obtain ⟨ts, xs, tail, named, dots, h1, h2, h3, h4, h5, h6⟩ :=
            tokenizeArgNamesGo_parse L _ _ _ hc hn
          simp only [List.nil_append] at h1
          subst h1
          rw [h2] at ha
          cases ha
          have hp : FnMacro.parseArgs (xs ++ tail) = some (idsOf xs ++ dots, []) := by
            rcases h4 with ⟨rfl, rfl⟩ | ⟨⟨cs, hcs, rfl⟩, rfl⟩
            · simpa using parseArgs_plain h3
            · exact parseArgs_variadic h3 hcs
          refine ⟨named, idsOf xs, dots, h5, ?_, h6, fun name b => ⟨?_, ?_⟩⟩
          · rcases h4 with ⟨_, rfl⟩ | ⟨_, rfl⟩
            · exact .inl rfl
            · exact .inr rfl
          · simp only [FnMacro.parse, hp]
            repeat' split
            all_goals simp
          · intro m
            simp only [FnMacro.parse, hp]
            repeat' split
            all_goals simp
            rintro rfl
            rfl

/-- `C(a, /* c */, ...)`: two parameters reach `FnMacro::parse`. -/
example : ∃ (named ids dots : List Str),
    Spec.withoutComments [c!"a", c!"/* c */", c!"..."] = named ++ dots ∧
      (dots = [] ∨ dots = [c!"..."]) ∧ named.map (nameOf asciiEnv) = ids.map some ∧
      ∀ (name : Str) (b : List MacroToken),
        FnMacro.parse asciiEnv name [.ident c!"a", .comment c!" c ", .punct c!"..."] b ≠
          .error .invalidMacroArgs ∧
        ∀ m, FnMacro.parse asciiEnv name [.ident c!"a", .comment c!" c ", .punct c!"..."] b = .ok m →
          m.args = ids ++ dots :=
  C45_parameters_reach_parse asciiEnv asciiEnv_lawful paramHistory c!"C" _ [c!"__VA_ARGS__"]
    (by decide) (by decide) 3 _ [.arg 2] (by decide +kernel)

end CMacro
