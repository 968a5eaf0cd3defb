import Verif.Proofs.Panic2
import Verif.Props.Params

/-!
# Property C13: expansion does not panic
-/

namespace CMacro
open Spec (Op Def Table BlockComment)

/-- Every spelling in a macro body satisfies `Q`. -/
def Spec.Bodies (D : Table) (Q : Str → Prop) : Prop :=
  (∀ n body, D n = some (.var body) → ∀ s ∈ body, Q s) ∧
  (∀ n ps body, D n = some (.fn ps body) → ∀ s ∈ body, Q s)

/-- Macros with `...` have at most one named parameter. -/
def Spec.ShortVariadics (D : Table) : Prop := ∀ f ps body, D f = some (.fn ps body) →
  (∀ p ∈ ps, ¬ c!"..." <:+ p) ∨ (Spec.withoutComments ps).length ≤ 2

theorem bodies_of_check {h : List Op} {Q : Str → Prop} [DecidablePred Q]
    (hc : (h.all fun o => match o with
      | .defineVar _ b => b.all fun s => decide (Q s)
      | .defineFn _ _ b => b.all fun s => decide (Q s)
      | _ => true) = true) : Spec.Bodies (Table.run h) Q := by
  constructor
  · intro n body hd s hs
    rcases run_mem hd with ⟨b, h1, h2⟩ | ⟨p, b, h1, _⟩
    · simp only [Def.var.injEq] at h1
      subst h1
      have := List.all_eq_true.1 hc _ h2
      simp only [List.all_eq_true, decide_eq_true_eq] at this
      exact this s hs
    · simp at h1
  · intro n ps body hd s hs
    rcases run_mem hd with ⟨b, h1, h2⟩ | ⟨p, b, h1, h2⟩
    · simp at h1
    · simp only [Def.fn.injEq] at h1
      obtain ⟨rfl, rfl⟩ := h1
      have := List.all_eq_true.1 hc _ h2
      simp only [List.all_eq_true, decide_eq_true_eq] at this
      exact this s hs

theorem shortVariadics_of_check {h : List Op}
    (hc : (h.all fun o => match o with
      | .defineFn _ ps _ => decide ((∀ p ∈ ps, ¬ c!"..." <:+ p) ∨
          (Spec.withoutComments ps).length ≤ 2)
      | _ => true) = true) : Spec.ShortVariadics (Table.run h) := by
  intro f ps body hd
  rcases run_mem hd with ⟨b, h1, h2⟩ | ⟨p, b, h1, h2⟩
  · simp at h1
  · simp only [Def.fn.injEq] at h1
    obtain ⟨rfl, rfl⟩ := h1
    simpa using List.all_eq_true.1 hc _ h2

/-- The number of real parameters and where `...` comes from. -/
theorem tokenizeArgNamesGo_short {E : Env} (L : E.Lawful) : ∀ (ss : List Str) (v : Bool)
    (acc names : List Token), tokenizeArgNamesGo E v acc ss = .ok names →
    (names.filter Token.isNotComment).length =
      (acc.filter Token.isNotComment).length + (Spec.withoutComments ss).length ∧
    (Token.punct c!"..." ∈ names → Token.punct c!"..." ∈ acc ∨ ∃ s ∈ ss, c!"..." <:+ s) := by
  intro ss
  induction ss with
  | nil =>
    intro v acc names h
    simp only [tokenizeArgNamesGo, Except.ok.injEq] at h
    subst h
    exact ⟨rfl, .inl⟩
  | cons s ss ih =>
    intro v acc names h
    have step : ∀ v' (t : Token), Token.fromStr E s = t →
        tokenizeArgNamesGo E v' (acc ++ [t]) ss = .ok names → t.isNotComment = true →
        (∀ c, t ≠ .comment c) → (t = .punct c!"..." → c!"..." <:+ s) →
        (names.filter Token.isNotComment).length =
          (acc.filter Token.isNotComment).length + (Spec.withoutComments (s :: ss)).length ∧
        (Token.punct c!"..." ∈ names → Token.punct c!"..." ∈ acc ∨ ∃ x ∈ s :: ss, c!"..." <:+ x) := by
      intro v' t ht hgo hnc hcc hdots
      obtain ⟨h1, h2⟩ := ih _ _ _ hgo
      rw [withoutComments_cons (not_blockComment L ht hcc)]
      refine ⟨?_, fun hm => ?_⟩
      · rw [h1, List.filter_append]
        simp [List.filter_cons, hnc]
        omega
      · rcases h2 hm with h | ⟨x, hx, h⟩
        · rcases List.mem_append.1 h with h | h
          · exact .inl h
          · simp only [List.mem_singleton] at h
            exact .inr ⟨s, List.mem_cons_self, hdots h.symm⟩
        · exact .inr ⟨x, List.mem_cons_of_mem _ hx, h⟩
    unfold tokenizeArgNamesGo at h
    split at h
    · rename_i id hid
      split at h
      · simp at h
      · split at h
        · simp at h
        · exact step _ _ hid h rfl (by simp) (by simp)
    · rename_i p hp
      split at h
      · rename_i hd
        split at h
        · simp at h
        · refine step _ _ hp h rfl (by simp) (fun _ => ?_)
          subst hd
          unfold Token.fromStr at hp
          repeat' split at hp
          all_goals first | (simp at hp; done) | skip
          rename_i hpt
          simp only [Token.punct.injEq] at hp
          exact hp ▸ punctTryFrom_suffix hpt
      · simp at h
    · rename_i c hcm
      obtain ⟨h1, h2⟩ := ih _ _ _ h
      rw [withoutComments_cons_comment (blockComment_of_fromStr hcm)]
      refine ⟨?_, fun hm => ?_⟩
      · rw [h1, List.filter_append]
        simp [List.filter_cons, Token.isNotComment]
      · rcases h2 hm with h | ⟨x, hx, h⟩
        · rcases List.mem_append.1 h with h | h
          · exact .inl h
          · simp at h
        · exact .inr ⟨x, List.mem_cons_of_mem _ hx, h⟩
    · simp at h

theorem shortVariadic {E : Env} (L : E.Lawful) {h : List Op}
    (hs : Spec.ShortVariadics (Table.run h)) : ShortVariadic E (MacroSet.run h) := by
  intro id as b names hg hn hv
  have hd : Table.run h id = some (.fn as b) := by
    have := (agrees_run h id).2
    rw [hg] at this
    split at this
    · rename_i p b' hd
      simp only [Option.some.injEq, Prod.mk.injEq] at this
      rw [hd, this.1, this.2]
    · simp at this
  obtain ⟨h1, h2⟩ := tokenizeArgNamesGo_short L _ _ _ _ hn
  rcases hs id as b hd with h | h
  · exfalso
    simp only [isVariadic, decide_eq_true_eq] at hv
    have := (List.mem_filter.1 (List.mem_of_getLast? hv)).1
    rcases h2 this with h' | ⟨s, hs, h'⟩
    · simp at h'
    · exact h s hs h'
  · rw [h1]; simpa using h

/-- **C13**, the full statement: no expansion call panics. -/
def C13_statement : Prop :=
  ∀ (E : Env), E.Lawful → ∀ (h : List Op) (k : Nat) (s : PanicSite),
    (∀ ts, (MacroSet.run h).expand E k ts ≠ .error (.panic s)) ∧
    (∀ n, (MacroSet.run h).expandVar E k n ≠ .error (.panic s)) ∧
    (∀ n, (MacroSet.run h).expandFn E k n ≠ .error (.panic s))

/-- Macros on which expansion panics. -/
def panicHistory : List Op :=
  [.defineFn c!"C" [c!"x"] [c!"x", c!"/* c */", c!"##", c!"1"],
   .defineFn c!"F" [c!"a", c!"b", c!"..."] [c!"b"],
   .defineFn c!"G" [c!"a", c!"b", c!"..."] [c!"__VA_ARGS__"],
   .defineVar c!"U" [c!"u8", c!"##", c!"\"\\xff\""]]

/-- **C13** is false of the code, in four ways: a comment between a parameter and `##`, two kinds
of too short calls of a variadic macro, and pasting `u8` onto a string that is not UTF-8. -/
theorem C13_panics :
    (MacroSet.run panicHistory).expandFn asciiEnv 3 c!"C" = .error (.panic .concatUnreachable) ∧
    (MacroSet.run panicHistory).expand asciiEnv 3 [c!"F", c!"(", c!"1", c!")"] =
      .error (.panic .argIndex) ∧
    (MacroSet.run panicHistory).expand asciiEnv 3 [c!"G", c!"(", c!"1", c!")"] =
      .error (.panic .varArgsSlice) ∧
    (MacroSet.run panicHistory).expandVar asciiEnv 3 c!"U" = .error (.panic .concatUnwrapLit) :=
  ⟨by decide +kernel, by decide +kernel, by decide +kernel, by decide +kernel⟩

theorem C13_false : ¬ C13_statement := fun hs =>
  (hs asciiEnv asciiEnv_lawful panicHistory 3 _).2.2 c!"C" C13_panics.1

/-- **C13**, what holds: no panic if no spelling ends with `##` and macros with `...` have at
most one named parameter. -/
theorem C13_no_panic_without_paste_partial (E : Env) (L : E.Lawful) (h : List Op)
    (hv : Spec.ShortVariadics (Table.run h))
    (hb : Spec.Bodies (Table.run h) fun s => ¬ c!"##" <:+ s) (k : Nat) (s : PanicSite) :
    (∀ ts, (∀ x ∈ ts, ¬ c!"##" <:+ x) → (MacroSet.run h).expand E k ts ≠ .error (.panic s)) ∧
    (∀ n, (MacroSet.run h).expandVar E k n ≠ .error (.panic s)) ∧
    (∀ n, (MacroSet.run h).expandFn E k n ≠ .error (.panic s)) := by
  have H := noPaste_stepInv (E := E) (ms := MacroSet.run h) (shortVariadic L hv)
    (fun id as b hg => by
      have := (agrees_run h id).2
      rw [hg] at this
      split at this
      · rename_i p b' hd
        simp only [Option.some.injEq, Prod.mk.injEq] at this
        rw [this.2]; exact hb.2 id p b' hd
      · simp at this)
    (fun id b hg => by
      have := (agrees_run h id).1
      rw [hg] at this
      split at this
      · rename_i b' hd
        simp only [Option.some.injEq] at this
        rw [this]; exact hb.1 id b' hd
      · simp at this)
  obtain ⟨h1, h2, h3⟩ := calls_fail_of H (by intro s; simp) (by intro x s; simp) (by
    rintro t ht rfl; simp [Token.isArg] at ht)
  refine ⟨fun ts hts he => ?_, fun n he => h2 _ _ _ he s rfl, fun n he => h3 _ _ _ he s rfl⟩
  refine h1 _ _ (fun t ht => ?_) _ he s rfl
  obtain ⟨x, hx, rfl⟩ := List.mem_map.1 ht
  exact .inr fun hc => hts x hx (fromStr_paste_suffix hc)

/-- A variadic macro called with nothing, stringification, and comments. -/
def calmHistory : List Op :=
  [.defineFn c!"S" [c!"x", c!"..."] [c!"#", c!"x", c!"__VA_ARGS__", c!"/* c */"],
   .defineFn c!"T" [c!"x", c!"y"] [c!"S", c!"(", c!"y", c!")", c!"x"]]

example (k : Nat) (s : PanicSite) :
    (MacroSet.run calmHistory).expand asciiEnv k [c!"T", c!"(", c!",", c!"S", c!")"] ≠
      .error (.panic s) :=
  (C13_no_panic_without_paste_partial asciiEnv asciiEnv_lawful calmHistory
    (shortVariadics_of_check (by decide)) (bodies_of_check (by decide)) k s).1 _ (by decide)

/-- **C13**, what holds with `##`: no panic if there are no comments, quotation marks, `#` and
leading line continuations, and macros with `...` have at most one named parameter. -/
theorem C13_no_panic_with_paste_partial (E : Env) (L : E.Lawful) (h : List Op)
    (hv : Spec.ShortVariadics (Table.run h)) (hb : Spec.Bodies (Table.run h) QuietSpelling)
    (k : Nat) (s : PanicSite) :
    (∀ ts, (∀ x ∈ ts, QuietSpelling x) → (MacroSet.run h).expand E k ts ≠ .error (.panic s)) ∧
    (∀ n, (MacroSet.run h).expandVar E k n ≠ .error (.panic s)) ∧
    (∀ n, (MacroSet.run h).expandFn E k n ≠ .error (.panic s)) := by
  have H := quiet_stepInv L (ms := MacroSet.run h) (shortVariadic L hv)
    (fun id as b hg => by
      have := (agrees_run h id).2
      rw [hg] at this
      split at this
      · rename_i p b' hd
        simp only [Option.some.injEq, Prod.mk.injEq] at this
        rw [this.2]; exact hb.2 id p b' hd
      · simp at this)
    (fun id b hg => by
      have := (agrees_run h id).1
      rw [hg] at this
      split at this
      · rename_i b' hd
        simp only [Option.some.injEq] at this
        rw [this]; exact hb.1 id b' hd
      · simp at this)
  obtain ⟨h1, h2, h3⟩ := calls_fail_of H (by intro s; simp) (by intro x s; simp) (by
    intro t ht
    cases t <;> first | trivial | simp [Token.isArg] at ht)
  refine ⟨fun ts hts he => ?_, fun n he => h2 _ _ _ he s rfl, fun n he => h3 _ _ _ he s rfl⟩
  refine h1 _ _ (fun t ht => ?_) _ he s rfl
  obtain ⟨x, hx, rfl⟩ := List.mem_map.1 ht
  exact .inr (quiet_fromStr (hts x hx))

/-- `#define J(x, y) x ## y . ## 1.5e ## + ## K(x)` and `#define K(z) z ## 1.0 ## z`. -/
def catLike : List Op :=
  [.defineFn c!"J" [c!"x", c!"y"] [c!"x", c!"##", c!"y", c!".", c!"##", c!"1.5e", c!"##", c!"+",
    c!"##", c!"K", c!"(", c!"x", c!")"],
   .defineFn c!"K" [c!"z"] [c!"z", c!"##", c!"1.0", c!"##", c!"z"]]

example (k : Nat) (s : PanicSite) :
    (MacroSet.run catLike).expandFn asciiEnv k c!"J" ≠ .error (.panic s) :=
  (C13_no_panic_with_paste_partial asciiEnv asciiEnv_lawful catLike
    (shortVariadics_of_check (by decide)) (bodies_of_check (by decide)) k s).2.2 _

end CMacro
