import Verif.Lemmas.Glides

/-!
# C19, C20: options that have no effect, or only extend
-/

namespace Jvotci

open Spec

/-- **C19.** Without experimental rafsi `analyse_brivla` returns the same with and without `glides`, or raises in both
cases: the same exception, unless the one without `glides` is `IndexError`. -/
theorem C19_analyse {b : Build} {s : Settings} {w : Str} (he : s.expRafsi = false) :
    analyseBrivla b { s with glides := true } w = analyseBrivla b { s with glides := false } w ∨
    (analyseBrivla b { s with glides := false } w = .error .index ∧
      ∃ e, analyseBrivla b { s with glides := true } w = .error e) := by
  have := analyseR_glides (R := recN b (budget w.length)) (s := { s with glides := false }) (w := w) he rfl
  rcases this with h | h
  · exact .inl h.symm
  · exact .inr h

/-- A word with a glide after a hyphen. -/
example : analyseBrivla .linked { glides := true, consonants := .twoConsonants } s%"bajyiastu'ykerlo" =
    .ok (.extendedLujvo, [s%"baj", s%"y", s%"iastu", s%"'y", s%"kerlo"]) := by decide +kernel

/-- The second case of `C19_analyse` is not void: the exceptions can differ. -/
theorem C19_exceptions_differ :
    analyseBrivla .linked { glides := false } s%"bajyiastu'yyla" = .error .index ∧
    analyseBrivla .linked { glides := true } s%"bajyiastu'yyla" = .error .notBrivla := by decide +kernel

/-- **C19.** Without experimental rafsi `get_lujvo` gives the same result, score, index pairs or exception with and without
`glides`. -/
theorem C19_lujvo {b : Build} {s : Settings} {gc : Bool} {t : Tanru} (he : s.expRafsi = false) :
    getLujvoWithAnalytics b { s with glides := true } gc t = getLujvoWithAnalytics b { s with glides := false } gc t := by
  unfold getLujvoWithAnalytics
  congr 1
  funext l
  exact getLujvoFromList_glides (s := { s with glides := false }) he

/-- With experimental rafsi `glides` does have an effect: the hypothesis is needed. -/
example :
    getLujvo .linked { yHyphens := .allowY, consonants := .oneConsonant, glides := true, expRafsi := true } false
      (.str s%"-ia- -ia-") = .ok s%"ia'yia" ∧
    getLujvo .linked { yHyphens := .allowY, consonants := .oneConsonant, glides := false, expRafsi := true } false
      (.str s%"-ia- -ia-") = .error .noLujvo ∧
    analyseBrivla .linked { glides := true, expRafsi := true } s%"latyia" = .ok (.extendedLujvo, [s%"lat", s%"y", s%"ia"]) ∧
    analyseBrivla .linked { glides := false, expRafsi := true } s%"latyia" = .error .notBrivla ∧
    getLujvo .linked { glides := true } false (.str s%"mlatu bangu'ue") = getLujvo .linked {} false (.str s%"mlatu bangu'ue") := by
  decide +kernel

/-! ## C20 -/

theorem check_exp {R : Rec} {y : YHyphens} {e e' mz : Bool} {v : Str} :
    checkZihevlaOrRafsi R true y e mz v = checkZihevlaOrRafsi R true y e' mz v := by
  unfold checkZihevlaOrRafsi
  simp

theorem check_exp_mono {R : Rec} {y : YHyphens} {rz mz : Bool} {v : Str} {sh : Shape}
    (h : checkZihevlaOrRafsi R true y false mz v = .ok sh) :
    checkZihevlaOrRafsi R rz y true mz v = .ok sh := by
  unfold checkZihevlaOrRafsi at h ⊢
  split at h
  · cases h
  · rename_i hlen
    simp only [true_and] at hlen
    rw [if_neg (by simp [hlen])]
    obtain ⟨st, hst, h1⟩ := bind_ok h
    rw [hst, ok_bind]
    split at h1
    · cases h1
    · rename_i hsy
      simp at hsy
      rw [if_neg (by omega)]
      obtain ⟨u, hu, h2⟩ := bind_ok h1
      rw [hu, ok_bind]
      split at h2
      · rw [if_pos rfl] at h2; cases h2
      · exact h2

theorem partBody_exp {R : Rec} {ctx : ACtx} {i : Nat} {rp : List Str} {m h : Bool} {n : Nat} {f : PartForm} {st : AState}
    (he : ctx.s.expRafsi = false) (hb : partBody R ctx i rp m h n f = .ok st) :
    partBody R { ctx with s := { ctx.s with expRafsi := true } } i rp m h n f = .ok st := by
  unfold partBody at hb ⊢
  obtain ⟨⟨found, did⟩, hk, h1⟩ := bind_ok hb
  rw [show (if f.canBeRafsi then tryKaha R { ctx with s := { ctx.s with expRafsi := true } } f else Except.ok ([], false)) =
    .ok (found, did) from hk, ok_bind]
  dsimp only at h1 ⊢
  cases did with
  | true =>
    rw [if_pos rfl] at h1 ⊢
    exact h1
  | false =>
    rw [if_neg (by simp)] at h1 ⊢
    obtain ⟨sh, hsh, h2⟩ := bind_ok h1
    simp only [he, Bool.not_false, Bool.or_true] at hsh
    cases hc : checkZihevlaOrRafsi R true ctx.s.yHyphens false ctx.s.allowMz f.part with
    | error e => rw [hc] at hsh; cases e <;> cases hsh
    | ok sh' =>
      rw [hc] at hsh
      cases hsh
      rw [check_exp_mono hc, ok_bind]
      exact h2

theorem analysePart_exp {R : Rec} {ctx : ACtx} {i : Nat} {part0 : Str} {st st' : AState} (he : ctx.s.expRafsi = false)
    (h : analysePart R ctx i part0 st = .ok st') :
    analysePart R { ctx with s := { ctx.s with expRafsi := true } } i part0 st = .ok st' := by
  rw [analysePart_eq] at h ⊢
  obtain ⟨⟨part, lh⟩, hl, h1⟩ := bind_ok h
  rw [hl, ok_bind]
  dsimp only at h1 ⊢
  split at h1
  · rename_i hc; rw [if_pos hc]; exact h1
  · rename_i hc
    rw [if_neg hc]
    obtain ⟨c0, hc0, h2⟩ := bind_ok h1
    rw [hc0, ok_bind]
    rw [partTail_eq] at h2 ⊢
    obtain ⟨f, hf, h3⟩ := bind_ok h2
    rw [show partForm { ctx with s := { ctx.s with expRafsi := true } } i _ part = .ok f from hf, ok_bind]
    exact partBody_exp he h3

theorem analyseLoop_exp {R : Rec} {ctx : ACtx} (he : ctx.s.expRafsi = false) : ∀ {ps : List Str} {i : Nat} {st st' : AState},
    analyseLoop R ctx i ps st = .ok st' →
    analyseLoop R { ctx with s := { ctx.s with expRafsi := true } } i ps st = .ok st' := by
  intro ps
  induction ps with
  | nil => intro i st st' h; exact h
  | cons p ps ih =>
    intro i st st' h
    unfold analyseLoop at h ⊢
    obtain ⟨a, ha, h1⟩ := bind_ok h
    rw [analysePart_exp he ha, ok_bind]
    exact ih h1

theorem readChar_y {c : Char} (h1 : c ≠ 'y') (h2 : c ≠ 'Y') : 'y' ∉ readChar c := by
  unfold readChar
  split
  · simp
  · split
    · simp
    · split
      · rename_i h
        simp only [List.mem_singleton]
        intro hc
        have h3 : c.toNat < 91 := Nat.lt_succ_of_le h.2
        have key : ∀ n < 91, Char.ofNat (n + 32) = 'y' → n = 89 := by decide
        have hn := key _ h3 hc.symm
        exact h2 (by rw [← Char.ofNat_toNat c, hn])
      · split
        · simp
        · split
          · simp
          · simpa using fun h => h1 h.symm

theorem reading_y {w : Str} (h1 : 'y' ∉ w) (h2 : 'Y' ∉ w) : 'y' ∉ reading w := by
  have key : ∀ v : Str, 'y' ∉ v → 'Y' ∉ v → 'y' ∉ v.flatMap readChar := by
    intro v h1 h2 h
    obtain ⟨c, hc, h⟩ := List.mem_flatMap.1 h
    exact readChar_y (fun e => h1 (e ▸ hc)) (fun e => h2 (e ▸ hc)) h
  unfold reading
  split
  · exact key _ (fun h => h1 (by simp [h])) (fun h => h2 (by simp [h]))
  · exact key _ h1 h2

/-- **C20.** Experimental rafsi have no effect on words without `y`. -/
theorem C20_no_y {b : Build} {s : Settings} {w : Str} (h1 : 'y' ∉ w) (h2 : 'Y' ∉ w) :
    analyseBrivla b { s with expRafsi := true } w = analyseBrivla b { s with expRafsi := false } w := by
  unfold analyseBrivla analyseR
  cases hn : normalise w with
  | error e => rfl
  | ok v =>
    have hv : 'y' ∉ v := by rw [(normalise_ok hn).2]; exact reading_y h1 h2
    rw [ok_bind, ok_bind]
    unfold analyseNorm
    have : ∀ cm c0, analyseRest (recN b (budget w.length)) { s with expRafsi := true } cm c0 v =
        analyseRest (recN b (budget w.length)) { s with expRafsi := false } cm c0 v := by
      intro cm c0
      unfold analyseRest
      rw [splitOn_of_not_mem hv]
      dsimp only
      rw [check_exp (e := true) (e' := false)]
      rfl
    simp only [this]

example : analyseBrivla .linked { expRafsi := true } s%"spageti" = .ok (.zihevla, [s%"spageti"]) ∧
    analyseBrivla .linked { expRafsi := true } s%"ai'a" = .error .notBrivla := by decide +kernel

/-- **C20.** A word accepted without experimental rafsi is accepted with them, with the same type and decomposition. -/
theorem C20_extends {b : Build} {s : Settings} {w : Str} {r : BType × List Str}
    (h : analyseBrivla b { s with expRafsi := false } w = .ok r) :
    analyseBrivla b { s with expRafsi := true } w = .ok r := by
  unfold analyseBrivla analyseR at h ⊢
  obtain ⟨v, hn, h1⟩ := bind_ok h
  rw [hn, ok_bind]
  unfold analyseNorm at h1 ⊢
  have key : ∀ cm c0, analyseRest (recN b (budget w.length)) { s with expRafsi := false } cm c0 v = .ok r →
      analyseRest (recN b (budget w.length)) { s with expRafsi := true } cm c0 v = .ok r := by
    intro cm c0 h
    unfold analyseRest at h ⊢
    split at h
    · cases h
    · rename_i h0
      rw [if_neg h0]
      split at h
      · rename_i h1
        rw [if_pos h1]
        dsimp only
        rw [check_exp (e := true) (e' := false)]
        exact h
      · rename_i h1
        rw [if_neg h1]
        unfold analyseY at h ⊢
        obtain ⟨st, hst, h2⟩ := bind_ok h
        have := analyseLoop_exp (ctx := { s := { s with expRafsi := false }, isCmevlatai := cm, yParts := splitOn 'y' v }) rfl hst
        dsimp only at this ⊢
        rw [this, ok_bind]
        exact h2
  split at h1
  · rename_i c0 last hc0 hlast
    dsimp only at h1 ⊢
    split at h1
    · cases h1
    · rename_i g1
      rw [if_neg g1]
      split at h1
      · cases h1
      · rename_i g2
        rw [if_neg g2]
        split at h1
        · rename_i g3
          rw [if_pos g3]
          exact h1
        · rename_i g3
          rw [if_neg g3]
          split at h1
          · exact h1
          · exact key _ _ h1
          · exact key _ _ h1
          · exact key _ _ h1
          · cases h1
  · cases h1

example : analyseBrivla .linked { expRafsi := false } s%"latyspageti" = .ok (.extendedLujvo, [s%"lat", s%"y", s%"spageti"]) ∧
    analyseBrivla .linked { expRafsi := false } s%"kerly'ai" = .error .notBrivla ∧
    analyseBrivla .linked { expRafsi := true } s%"kerly'ai" = .ok (.extendedLujvo, [s%"kerl", s%"y'", s%"ai"]) := by
  decide +kernel

end Jvotci
