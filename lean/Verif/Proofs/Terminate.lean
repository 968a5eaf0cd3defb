import Verif.Proofs.Nested
import Verif.Proofs.Congr

/-! # Termination: variable-like macros only; and a set that never finishes -/

namespace CMacro
open Spec (Item Table Def Op)

theorem asciiEnv_lawful : asciiEnv.Lawful where
  startAscii _ _ := rfl
  contAscii _ _ := rfl
  startCont c h := by
    have h' : c.isAlpha = true := h
    show (c.isAlphanum || c == '_') = true
    simp [Char.isAlphanum, h']

variable {E : Env} {ms : MacroSet}

/-- After a finished scan no token refers to a macro. -/
theorem scan_done_inert (hfn : ∀ id, ms.fn.get id = none) {S : List Str} :
    ∀ {ts out : List Token}, scan ms S ts = .done out → InertTok ms S out := by
  intro ts
  induction ts with
  | nil => intro out h; simp only [scan, Scan.done.injEq] at h; subst h; intro id hid; simp at hid
  | cons t ts ih =>
    intro out h
    by_cases hi : ∃ id, t = .ident id
    · obtain ⟨id, rfl⟩ := hi
      simp only [scan, fnCallAt_none (hfn id)] at h
      split at h
      · cases hs : scan ms S ts with
        | done o =>
          rw [hs] at h
          simp only [Scan.push, Scan.done.injEq] at h
          subst h
          intro i hi
          exact ih hs i (by simpa using hi)
        | fnCall _ _ _ _ _ _ => rw [hs] at h; simp [Scan.push] at h
        | varRef _ _ _ _ => rw [hs] at h; simp [Scan.push] at h
      · rename_i hnot
        cases hv : ms.var.get id with
        | some b => rw [hv] at h; simp at h
        | none =>
          rw [hv] at h
          simp only at h
          cases hs : scan ms S ts with
          | done o =>
            rw [hs] at h
            simp only [Scan.push, Scan.done.injEq] at h
            subst h
            intro i hi
            rcases List.mem_cons.1 hi with hi | hi
            · simp only [Token.ident.injEq] at hi; subst hi; exact ⟨hnot, hfn i, hv⟩
            · exact ih hs i hi
          | fnCall _ _ _ _ _ _ => rw [hs] at h; simp [Scan.push] at h
          | varRef _ _ _ _ => rw [hs] at h; simp [Scan.push] at h
    · rw [scan_other S (fun id hc => hi ⟨id, hc⟩)] at h
      cases hs : scan ms S ts with
      | done o =>
        rw [hs] at h
        simp only [Scan.push, Scan.done.injEq] at h
        subst h
        intro i hi'
        rcases List.mem_cons.1 hi' with hi' | hi'
        · exact absurd ⟨i, hi'.symm⟩ hi
        · exact ih hs i hi'
      | fnCall _ _ _ _ _ _ => rw [hs] at h; simp [Scan.push] at h
      | varRef _ _ _ _ => rw [hs] at h; simp [Scan.push] at h

/-- A scan that stops: what it found, and the copied part does not refer to macros. -/
theorem scan_varRef (hfn : ∀ id, ms.fn.get id = none) {S : List Str} :
    ∀ {ts pre rest : List Token} {id : Str} {b : List Str},
      scan ms S ts = .varRef pre id b rest →
      InertTok ms S pre ∧ id ∉ S ∧ ms.var.get id = some b ∧ rest.length < ts.length := by
  intro ts
  induction ts with
  | nil => intro pre rest id b h; simp [scan] at h
  | cons t ts ih =>
    intro pre rest id b h
    have push : ∀ t', (∀ i, t' = .ident i → i ∉ S ∧ ms.fn.get i = none ∧ ms.var.get i = none) →
        (scan ms S ts).push t' = .varRef pre id b rest →
        InertTok ms S pre ∧ id ∉ S ∧ ms.var.get id = some b ∧ rest.length < (t :: ts).length := by
      intro t' ht' h
      cases hs : scan ms S ts with
      | done o => rw [hs] at h; simp [Scan.push] at h
      | fnCall _ _ _ _ _ _ => rw [hs] at h; simp [Scan.push] at h
      | varRef p i b' r =>
        rw [hs] at h
        simp only [Scan.push, Scan.varRef.injEq] at h
        obtain ⟨rfl, rfl, rfl, rfl⟩ := h
        obtain ⟨h1, h2, h3, h4⟩ := ih hs
        refine ⟨?_, h2, h3, by simp; omega⟩
        intro j hj
        rcases List.mem_cons.1 hj with hj | hj
        · exact ht' j hj.symm
        · exact h1 j hj
    by_cases hi : ∃ id, t = .ident id
    · obtain ⟨j, rfl⟩ := hi
      simp only [scan, fnCallAt_none (hfn j)] at h
      split at h
      · exact push _ (by simp) h
      · rename_i hnot
        cases hv : ms.var.get j with
        | some b' =>
          rw [hv] at h
          simp only [Scan.varRef.injEq] at h
          obtain ⟨rfl, rfl, rfl, rfl⟩ := h
          exact ⟨by intro i hi; simp at hi, hnot, hv, by simp⟩
        | none =>
          rw [hv] at h
          exact push _ (by intro i hi; simp at hi; subst hi; exact ⟨hnot, hfn j, hv⟩) h
    · rw [scan_other S (fun id hc => hi ⟨id, hc⟩)] at h
      exact push _ (fun i hc => absurd ⟨i, hc⟩ hi) h

theorem scan_ne_fnCall (hfn : ∀ id, ms.fn.get id = none) {S : List Str} :
    ∀ {ts pre rest : List Token} {id : Str} {as b : List Str} {args : List (List Token)},
      scan ms S ts ≠ .fnCall pre id as b args rest := by
  intro ts pre rest id as b args h
  have := scan_good (ms := ms) (P := fun _ => True) (fun _ _ => trivial) S ts (fun _ _ => trivial)
  rw [h] at this
  have h2 := this.2.1
  rw [hfn] at h2
  simp at h2

/-- The call finishes, with text that refers to no macro. -/
def Settles (E : Env) (ms : MacroSet) (S : List Str) (ts : List Token) : Prop :=
  ∃ N r, r ≠ .error .diverge ∧ (∀ n, N ≤ n → expandMacroBody E ms n S ts = r) ∧
    ∀ out, r = .ok out → InertTok ms S out

theorem settles_var (hfn : ∀ id, ms.fn.get id = none) {names : List Str}
    (hfin : ∀ id, ms.var.get id ≠ none → id ∈ names) :
    ∀ k S ts, (names.filter (fun x => x ∉ S)).length < k → Settles E ms S ts := by
  intro k
  induction k with
  | zero => intro S ts h; omega
  | succ k ihk =>
    intro S ts hk
    suffices h : ∀ m (pre rest : List Token), rest.length < m → InertTok ms S pre →
        Settles E ms S (pre ++ rest) by
      exact h (ts.length + 1) [] ts (Nat.lt_succ_self _) (by intro id hid; simp at hid)
    intro m
    induction m with
    | zero => intro pre rest h; omega
    | succ m ihm =>
      intro pre rest hm hpre
      have hsc := scan_inert hpre rest
      cases hs : scan ms S rest with
      | done out =>
        rw [hs, pushAll_done] at hsc
        refine ⟨1, .ok (pre ++ out), by simp, ?_, ?_⟩
        · intro n hn
          obtain ⟨n, rfl⟩ : ∃ j, n = j + 1 := ⟨n - 1, by omega⟩
          simp only [expandMacroBody, hsc]
        · intro o ho
          simp only [Except.ok.injEq] at ho
          subst ho
          exact scan_done_inert hfn hsc
      | fnCall p id as b args r => exact absurd hs (scan_ne_fnCall hfn)
      | varRef p id b r =>
        rw [hs, pushAll_varRef] at hsc
        obtain ⟨h1, h2, h3, h4⟩ := scan_varRef hfn hs
        have hlt := filter_length_lt (hfin id (by simp [h3])) h2
        have hcons : (setInsert S id) = id :: S := by simp [setInsert, h2]
        have hinner : ∃ N r, r ≠ .error .diverge ∧
            (∀ n, N ≤ n → expandVarMacroBody E (expandMacroBody E ms n) S id (tokenize E [] b) = r) ∧
            ∀ out, r = .ok out → InertTok ms S out := by
          unfold expandVarMacroBody
          split
          · exact ⟨0, _, by simp, fun _ _ => rfl, by simp⟩
          · have hd := expandConcat_ne_diverge E (tokenize E [] b)
            cases hc : expandConcat E (tokenize E [] b) with
            | error e => rw [hc] at hd; exact ⟨0, _, hd, fun _ _ => rfl, by simp⟩
            | ok b' =>
              obtain ⟨N, r, hr, hN, hin⟩ := ihk (setInsert S id) (removePlacemarkers b')
                (by rw [hcons]; omega)
              refine ⟨N, r, hr, hN, fun out ho i hi => ?_⟩
              obtain ⟨h1, h2, h3⟩ := hin out ho i hi
              exact ⟨fun hc => h1 (by simp [hcons, hc]), h2, h3⟩
        obtain ⟨N, r', hr', hN, hin⟩ := hinner
        cases r' with
        | error e =>
          refine ⟨N + 1, .error e, hr', ?_, by simp⟩
          intro n hn
          obtain ⟨n, rfl⟩ : ∃ j, n = j + 1 := ⟨n - 1, by omega⟩
          simp only [expandMacroBody, hsc, hN n (by omega)]
        | ok ex =>
          have hpre' : InertTok ms S (pre ++ p ++ ex) := by
            intro i hi
            rcases List.mem_append.1 hi with hi | hi
            · rcases List.mem_append.1 hi with hi | hi
              · exact hpre i hi
              · exact h1 i hi
            · exact hin ex rfl i hi
          obtain ⟨N2, r2, hr2, hN2, hin2⟩ := ihm (pre ++ p ++ ex) r (by omega) hpre'
          refine ⟨max N N2 + 1, r2, hr2, ?_, hin2⟩
          intro n hn
          obtain ⟨n, rfl⟩ : ∃ j, n = j + 1 := ⟨n - 1, by omega⟩
          simp only [expandMacroBody, hsc, hN n (by omega)]
          exact hN2 n (by omega)

theorem detokenize_ne_diverge (k : Nat) : ∀ ts, detokenize k ts ≠ .error .diverge := by
  have one : ∀ t : Token, t.detokenize k ≠ .error .diverge := by
    intro t
    induction t with
    | nonRepl t ih => exact ih
    | varArgs => simp only [Token.detokenize]; split <;> simp
    | _ => simp [Token.detokenize]
  intro ts
  induction ts with
  | nil => simp [detokenize]
  | cons t ts ih =>
    simp only [detokenize]
    cases h : t.detokenize k with
    | error e => intro hc; exact one t (by rw [h]; simpa [bind, Except.bind] using hc)
    | ok m =>
      cases h' : detokenize k ts with
      | error e => intro hc; exact ih (by rw [h']; simpa [bind, Except.bind] using hc)
      | ok ms => simp [bind, Except.bind]

/-- With variable-like macros only, expanding any list of spellings under any hidden name
finishes. -/
theorem expandVarMacroBody_settles (hfn : ∀ id, ms.fn.get id = none) (S : List Str) (name : Str)
    (b : List Str) : ∃ r, r ≠ .error .diverge ∧
      ∃ N, expandVarMacroBody E (expandMacroBody E ms N) S name (tokenize E [] b) = r := by
  unfold expandVarMacroBody
  split
  · exact ⟨_, by simp, 0, rfl⟩
  · have hd := expandConcat_ne_diverge E (tokenize E [] b)
    cases hc : expandConcat E (tokenize E [] b) with
    | error e => rw [hc] at hd; exact ⟨_, hd, 0, rfl⟩
    | ok b' =>
      have hfin : ∀ id, ms.var.get id ≠ none → id ∈ ms.var.map (·.1) := by
        intro id h
        cases hv : ms.var.get id with
        | none => exact absurd hv h
        | some v =>
          clear h
          generalize hm : ms.var = m at hv ⊢
          clear hm
          induction m with
          | nil => simp [Map.get] at hv
          | cons e m ih =>
            obtain ⟨a, w⟩ := e
            rw [Map.get_cons] at hv
            split at hv
            · rename_i he; simp [he]
            · simp only [List.map_cons, List.mem_cons]; exact .inr (ih hv)
      obtain ⟨N, r, hr, hN, _⟩ := settles_var (E := E) hfn hfin _ (setInsert S name)
        (removePlacemarkers b') (Nat.lt_succ_self _)
      exact ⟨r, hr, N, hN N (Nat.le_refl _)⟩

/-! ## A set that never finishes -/

/-- `#define f() h g (`, `#define g() ( ) ( ) )`, `#define h() f`. -/
def loopHistory : List Op :=
  [.defineFn c!"f" [] [c!"h", c!"g", c!"("],
   .defineFn c!"g" [] [c!"(", c!")", c!"(", c!")", c!")"],
   .defineFn c!"h" [] [c!"f"]]

theorem loop_diverges : ∀ n,
    expandMacroBody asciiEnv (MacroSet.run loopHistory) n [[]]
      [.ident c!"f", .punct c!"(", .punct c!")", .punct c!")"] = .error .diverge ∧
    expandMacroBody asciiEnv (MacroSet.run loopHistory) n [[]]
      [.ident c!"h", .ident c!"g", .punct c!"(", .punct c!")"] = .error .diverge ∧
    expandMacroBody asciiEnv (MacroSet.run loopHistory) n [[]]
      [.ident c!"h", .punct c!"(", .punct c!")", .punct c!"(", .punct c!")", .punct c!")"] =
        .error .diverge := by
  intro n
  induction n with
  | zero => exact ⟨rfl, rfl, rfl⟩
  | succ n ih =>
    obtain ⟨ih1, ih2, ih3⟩ := ih
    have key : ∀ (ts ts' : List Token) pre id b rest,
        scan (MacroSet.run loopHistory) [[]] ts = .fnCall pre id [] b [[]] rest →
        (∀ m, expandFnMacroBody asciiEnv
          (expandMacroBody asciiEnv (MacroSet.run loopHistory) (m + 1)) [[]] id [] (some [[]])
          (tokenize asciiEnv [] b) = .ok ts') →
        expandFnMacroBody asciiEnv
          (expandMacroBody asciiEnv (MacroSet.run loopHistory) 0) [[]] id [] (some [[]])
          (tokenize asciiEnv [] b) = .error .diverge →
        expandMacroBody asciiEnv (MacroSet.run loopHistory) n [[]] (pre ++ ts' ++ rest) =
          .error .diverge →
        expandMacroBody asciiEnv (MacroSet.run loopHistory) (n + 1) [[]] ts = .error .diverge := by
      intro ts ts' pre id b rest h1 h2 h3 h4
      rw [expandMacroBody, h1]
      simp only [tokenizeArgNames, tokenizeArgNamesGo]
      cases n with
      | zero => rw [h3]
      | succ m => rw [h2 m]; exact h4
    refine ⟨?_, ?_, ?_⟩
    · exact key _ [.ident c!"h", .ident c!"g", .punct c!"("] [] c!"f" [c!"h", c!"g", c!"("]
        [.punct c!")"] (by rfl) (fun m => by rfl) (by rfl) ih2
    · exact key _ [.punct c!"(", .punct c!")", .punct c!"(", .punct c!")", .punct c!")"]
        [.ident c!"h"] c!"g" [c!"(", c!")", c!"(", c!")", c!")"] []
        (by rfl) (fun m => by rfl) (by rfl) ih3
    · exact key _ [.ident c!"f"] [] c!"h" [c!"f"] [.punct c!"(", .punct c!")", .punct c!")"]
        (by rfl) (fun m => by rfl) (by rfl) ih1

end CMacro
