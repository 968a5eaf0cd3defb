import Verif.Proofs.Args

/-! # Which failures the three calls can report -/

namespace CMacro
open Spec (Item Table BlockComment IsIdent)
open Parser

variable {E : Env} {ms : MacroSet}

/-- Whatever the three calls fail with satisfies `F`, if the primitive steps' failures do.
`detokenize` never panics. -/
theorem calls_fail_of {P : Token → Prop} {F : Fail → Prop} (H : StepInv E ms P F)
    (hmiss : F (.err .macroNotFound)) (hinv : ∀ s, F (.err (.invalidToken s)))
    (harg : ∀ t : Token, t.isArg = true → P t) :
    (∀ k ts, (∀ t ∈ tokenize E [] ts, t.isArg = true ∨ P t) →
      ∀ e, ms.expand E k ts = .error e → F e) ∧
    (∀ k n e, ms.expandVar E k n = .error e → F e) ∧
    (∀ k n e, ms.expandFn E k n = .error e → F e) := by
  have hv : ∀ k n b e, (∀ t ∈ tokenize E [] b, t.isArg = true ∨ P t) →
      (match expandVarMacroBody E (expandMacroBody E ms k) [] n (tokenize E [] b) with
        | .error e => Except.error e
        | .ok ts => CMacro.detokenize 0 ts) = .error e → F e := by
    intro k n b e hb h
    have := expandVarMacroBody_sat H (rec := expandMacroBody E ms k)
      (fun S ts h' => expandMacroBody_sat H k S ts h') (names := [])
      (name := n) (b := b) hb
    split at h
    · rename_i e' he
      rw [he] at this
      simp only [Except.error.injEq] at h
      exact h ▸ this
    · rename_i ts hts
      have hnv := expandVarMacroBody_bounded hts
      obtain ⟨s, rfl⟩ := detokenize_error_noVar h (.inl (fun t ht hc => by
        have := hnv t ht; rw [hc] at this; simp [Token.isArg] at this))
      exact hinv s
  refine ⟨?_, ?_, ?_⟩
  · intro k ts hts e h
    exact hv _ _ _ _ hts h
  · intro k n e h
    simp only [MacroSet.expandVar] at h
    split at h
    · simp only [Except.error.injEq] at h; exact h ▸ hmiss
    · rename_i b hb
      exact hv _ _ _ _ (H.varBody n b hb) h
  · intro k n e h
    simp only [MacroSet.expandFn] at h
    split at h
    · simp only [Except.error.injEq] at h; exact h ▸ hmiss
    · rename_i as b hg
      split at h
      · rename_i e' he
        simp only [Except.error.injEq] at h
        subst h
        rcases tokenizeArgNamesGo_error _ _ _ _ _ he with rfl | ⟨s, rfl⟩
        · exact H.argName
        · exact H.nonUnique s
      · rename_i names hn
        split at h
        · rename_i e' he
          have := expandFnMacroBody_none_sat H (n := k)
            (names := []) (name := n) (argNames := names) (b := tokenize E names b)
            (fun _ t ht => (H.fnBody n as b names hg hn t ht).elim (harg t) id)
          rw [he] at this
          simp only [Except.error.injEq] at h
          exact h ▸ this
        · rename_i ts hts
          split at h
          · rename_i e' he
            simp only [Except.error.injEq] at h
            subst h
            have hnv : (∀ t ∈ ts, t.strip ≠ .varArgs) ∨ names.length ≠ 0 := by
              by_cases h0 : names.length = 0
              · left
                have hnil : names = [] := List.eq_nil_of_length_eq_zero h0
                subst hnil
                have HB := bounded_stepInv E ms 0 False
                have := expandFnMacroBody_none_sat HB (n := k) (names := []) (name := n)
                  (argNames := []) (b := tokenize E [] b) (by
                    intro hva t ht
                    have hm : ∀ i, Token.macroArg i ∉ tokenize E [] b := by
                      intro i hi
                      obtain ⟨s, _, hs⟩ := List.mem_map.1 hi
                      exact fromStr_ne_macroArg E s i hs
                    refine varBody_noArg ?_ (fun t ht => ?_) hm t ht
                    · rcases hva with h | h
                      · simp [isVariadic] at h
                      · exact h
                    · obtain ⟨s, _, rfl⟩ := List.mem_map.1 ht
                      exact tokenizeOne_arg [] s)
                rw [hts] at this
                exact fun t ht hc => ((this t ht).2 hc)
              · exact .inr h0
            obtain ⟨s, rfl⟩ := detokenize_error_noVar he hnv
            exact hinv s
          · split at h
            · rename_i e' he
              simp only [Except.error.injEq] at h
              subst h
              have hpt := tokenizeArgNamesGo_tok _ _ _ _ AllTok.nil hn
              obtain ⟨s, rfl⟩ := detokenize_error_noVar he (.inl (fun t ht hc => by
                have := hpt t ht
                cases t with
                | nonRepl t => simp [ParamTok] at this
                | varArgs => simp [ParamTok] at this
                | _ => simp [Token.strip] at hc))
              exact hinv s
            · simp at h

end CMacro
