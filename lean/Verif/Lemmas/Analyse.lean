import Verif.Lemmas.Kaha

/-!
# Helper lemmas: `analyse_brivla`
-/

namespace Jvotci

open Spec

theorem bind_ok {ε α β : Type} {x : Except ε α} {f : α → Except ε β} {b : β}
    (h : (x >>= f) = .ok b) : ∃ a, x = .ok a ∧ f a = .ok b := by
  cases x with
  | error e => cases h
  | ok a => exact ⟨a, rfl, h⟩

theorem idx_ok {s : Str} {i : Nat} {c : Char} (h : idx s i = .ok c) : s[i]? = some c := by
  unfold idx at h
  split at h
  · cases h; assumption
  · cases h

theorem idxLast_ok {s : Str} {c : Char} (h : idxLast s = .ok c) : s.getLast? = some c := by
  unfold idxLast at h
  split at h
  · cases h; assumption
  · cases h

theorem jvokaha_ok {R : Rec} {y : YHyphens} {co : Consonants} {g mz : Bool} {w : Str} {arr : List Str}
    (h : jvokaha R y co g mz w = .ok arr) :
    jvokaha2 y mz w = .ok arr ∧ (arr.filter (fun x => x.length > 2)).length ≠ 1 ∧
    ∃ lastPiece l r, arr.getLast? = some lastPiece ∧ lastPiece.getLast? = some l ∧
      getLujvoFromList R { yHyphens := y, consonants := co, glides := g, allowMz := mz } (isConsonant l)
        ((arr.filter (fun x => x.length > 2)).map (fun x => s%"-" ++ x ++ s%"-")) = .ok r ∧
      (if y = .forceY then r.1 = w
       else ∃ corr, jvokaha2 y mz r.1 = .ok corr ∧ compareLujvoPieces corr arr = .ok true) := by
  unfold jvokaha at h
  obtain ⟨arr', h1, h⟩ := bind_ok h
  dsimp only at h
  split at h
  · cases h
  · rename_i hlen
    split at h
    · cases h
    · rename_i lp hlp
      obtain ⟨l, hl, h⟩ := bind_ok h
      obtain ⟨r, hr, h⟩ := bind_ok h
      obtain ⟨good, hg, h⟩ := bind_ok h
      have hgood : good = true ∧ arr' = arr := by
        cases good with
        | true => simp at h; exact ⟨rfl, h⟩
        | false => simp at h
      obtain ⟨rfl, rfl⟩ := hgood
      have hr' : getLujvoFromList R { yHyphens := y, consonants := co, glides := g, allowMz := mz } (isConsonant l)
        ((arr'.filter (fun x => x.length > 2)).map (fun x => s%"-" ++ x ++ s%"-")) = .ok r := by
        split at hr
        · cases hr
        · exact hr
      refine ⟨h1, by simpa using hlen, lp, l, r, hlp, idxLast_ok hl, hr', ?_⟩
      split at hg
      · rename_i hy
        rw [if_pos hy]
        simpa using hg
      · rename_i hy
        rw [if_neg hy]
        obtain ⟨corr, hc, hg⟩ := bind_ok hg
        exact ⟨corr, hc, hg⟩

/-! ## y-parts -/

theorem stripLeadingH_ok {i : Nat} {part0 part : Str} {lead : Bool} (h : stripLeadingH i part0 = .ok (part, lead)) :
    part ≠ [] ∧ part0 = (if lead then '\'' :: part else part) ∧
    (lead = true → ∃ v t, part = v :: t ∧ isVowel v = true) ∧
    (lead = false → (∀ c t, part = c :: t → c ≠ '\'') ∧
      (0 < i → ∀ c t, part = c :: t → isVowel c = true → isGlide part = true)) := by
  unfold stripLeadingH at h
  cases part0 with
  | nil => cases h
  | cons c cs =>
    dsimp only at h
    split at h
    · rename_i hc
      cases cs with
      | nil => cases h
      | cons v t =>
        dsimp only at h
        split at h
        · cases h
        · rename_i hv
          obtain ⟨sy, hs, h⟩ := bind_ok h
          cases sy with
          | nil => cases h
          | cons s0 ss =>
            dsimp only at h
            split at h
            · cases h
            · cases h
              refine ⟨by simp, by simp [hc], fun _ => ⟨v, t, rfl, by simpa using hv⟩, by simp⟩
    · rename_i hc
      split at h
      · cases h
      · rename_i hg
        cases h
        refine ⟨by simp, by simp, by simp, fun _ => ⟨?_, ?_⟩⟩
        · intro c' t' e; cases e; exact hc
        · intro hi c' t' e hv
          cases e
          simp [hi, hv] at hg
          exact hg

theorem partForm_ok {ctx : ACtx} {i : Nat} {hc : Bool} {part : Str} {f : PartForm}
    (h : partForm ctx i hc part = .ok f) :
    part = f.partCopy ++ (if f.trailingH then s%"'" else []) ∧
    f.part = f.partCopy ++ (if f.didAddA then s%"a" else []) ∧
    f.partA = part ++ s%"a" ∧
    (f.didAddA = true → f.trailingH = false) ∧
    (f.trailingH = true → ∃ l, f.partCopy.getLast? = some l ∧ isVowel l = true) ∧
    (f.trailingH = false → part.getLast? ≠ some '\'') ∧
    (f.didAddA = true ↔ f.trailingH = false ∧ (i + 1 < ctx.yParts.length ∨ ctx.isCmevlatai = true)) ∧
    (f.canBeRafsi = false → f.didAddA = true) ∧ part ≠ [] := by
  unfold partForm at h
  dsimp only at h
  obtain ⟨l, hl, h⟩ := bind_ok h
  have hl' := idxLast_ok hl
  have hne : part ≠ [] := by rintro rfl; simp at hl'
  split at h
  · rename_i he
    obtain ⟨rc, hrc, h⟩ := bind_ok h
    obtain ⟨l', hlast, h⟩ := bind_ok h
    split at h
    · cases h
    · rename_i hv
      cases h
      have hpart : part = dropLastN part 1 ++ s%"'" := by
        obtain ⟨t, rfl⟩ := List.getLast?_eq_some_iff.1 hl'
        subst he
        simp [dropLastN]
      refine ⟨by simpa using hpart, by simp, rfl, by simp, fun _ => ⟨l', idxLast_ok hlast, by simpa using hv⟩, by simp, by simp, by simp, hne⟩
  · rename_i he
    split at h
    · rename_i hi
      cases h
      refine ⟨by simp, by simp, rfl, by simp, by simp, fun _ => by rw [hl']; simpa using he, by simp [hi], by simp, hne⟩
    · rename_i hi
      cases h
      refine ⟨by simp, by simp, rfl, by simp, by simp, fun _ => by rw [hl']; simpa using he, by simpa using hi, by simp, hne⟩

theorem tryKaha_ok {R : Rec} {ctx : ACtx} {f : PartForm} {found : List Str} {did : Bool}
    (h : tryKaha R ctx f = .ok (found, did)) :
    (did = true → jvokaha2 ctx.s.yHyphens ctx.s.allowMz f.partCopy = .ok found ∧ found ≠ [] ∧
      (∀ p, found = [p] → isValidRafsi ctx.s.allowMz p = true)) ∧
    (did = false → found = [f.part] ∨ found = []) := by
  unfold tryKaha at h
  obtain ⟨_, _, h⟩ := bind_ok h
  split at h
  · cases h; simp
  · cases h; simp
  · cases h; simp
  · cases h
  · rename_i fnd hf
    split at h
    · cases h; simp
    · split at h
      · cases h
      · rename_i p hp
        cases h
        simp at hp
        simp [hf, hp]
    · rename_i h0 h1
      cases h
      refine ⟨fun _ => ⟨hf, fun e => h0 e, ?_⟩, by simp⟩
      intro p e
      exact absurd e (h1 p)

/-- The hyphen put before part `i`. -/
def hyphenBefore (i : Nat) (st : AState) (lead : Bool) : Str :=
  (if i ≠ 0 then st.nextHyphen ++ s%"y" else st.nextHyphen) ++ (if lead then s%"'" else [])

/-- `result_parts` after that hyphen has been appended. -/
def withHyphen (i : Nat) (st : AState) (lead : Bool) : List Str :=
  if hyphenBefore i st lead = [] then st.resultParts else st.resultParts ++ [hyphenBefore i st lead]

/-- What a successful pass through the loop over the parts does. -/
theorem analysePart_ok {R : Rec} {ctx : ACtx} {i : Nat} {part0 : Str} {st st' : AState}
    (h : analysePart R ctx i part0 st = .ok st') :
    ∃ part lead, stripLeadingH i part0 = .ok (part, lead) ∧
      ((rafsiTarmi part = .cvc ∧
          st' = { st with resultParts := withHyphen i st lead ++ [part], nextHyphen := [],
                          consonantBeforeBreak := true, numConsonants := st.numConsonants + 2 }) ∨
       (rafsiTarmi part ≠ .cvc ∧ ∃ c0 f found did, part[0]? = some c0 ∧
          let mah := if i > 0 && (isConsonant c0 || isGlide part) then false else st.isMahortai
          let hc := if st.consonantBeforeBreak && (isConsonant c0 || (ctx.s.glides && isGlide part)) then true
            else st.hasCluster
          partForm ctx i hc part = .ok f ∧
          (if f.canBeRafsi then tryKaha R ctx f else Except.ok ([], false)) = .ok (found, did) ∧
          let nh := if f.trailingH then s%"'" else []
          let cf := countFound found (st.numConsonants, hc)
          ((did = true ∧
            ¬ ((rafsiTarmi f.part = .cvv ∨ rafsiTarmi f.part = .cvhv) ∧
                f.requireCluster ∧ !cf.2 ∧ !ctx.isCmevlatai ∧
                (ctx.s.yHyphens = .standard ∨
                  ¬ (i + 2 = ctx.yParts.length ∧
                      (rafsiTarmi ((ctx.yParts[1]?).getD []) = .cvv ∨
                       rafsiTarmi ((ctx.yParts[1]?).getD []) = .ccv)))) ∧
            (if i = 0 then tosmabruTest R ctx f else Except.ok ()) = .ok () ∧
            st' = { resultParts := withHyphen i st lead ++ found, nextHyphen := nh, hasCluster := cf.2,
                    isMahortai := mah, consonantBeforeBreak := false, numConsonants := cf.1 }) ∨
           (did = false ∧ ∃ shape p0,
            checkZihevlaOrRafsi R (f.requireCluster || !ctx.s.expRafsi) ctx.s.yHyphens ctx.s.expRafsi
              ctx.s.allowMz f.part = .ok shape ∧
            (shape = .zihevla → f.didAddA = true →
              succeeds (jvokaha2 ctx.s.yHyphens ctx.s.allowMz f.part) = .ok false) ∧
            f.part[0]? = some p0 ∧
            st' = { resultParts := withHyphen i st lead ++ [f.partCopy], nextHyphen := nh,
                    hasCluster := if shape = .zihevla then true else cf.2,
                    isMahortai := mah, consonantBeforeBreak := false,
                    numConsonants := if isConsonant p0 || (ctx.s.glides && isGlide f.part) then cf.1 + 1
                      else cf.1 })))) := by
  unfold analysePart at h
  dsimp only at h
  obtain ⟨⟨part, lead⟩, hs, h⟩ := bind_ok h
  refine ⟨part, lead, hs, ?_⟩
  dsimp only at h
  have hh : (if lead then (if i ≠ 0 then st.nextHyphen ++ s%"y" else st.nextHyphen) ++ s%"'"
      else (if i ≠ 0 then st.nextHyphen ++ s%"y" else st.nextHyphen)) = hyphenBefore i st lead := by
    unfold hyphenBefore; cases lead <;> simp
  rw [hh] at h
  have hw : (if (hyphenBefore i st lead).isEmpty then st.resultParts
      else st.resultParts ++ [hyphenBefore i st lead]) = withHyphen i st lead := by
    unfold withHyphen; simp
  rw [hw] at h
  split at h
  · rename_i hcvc
    cases h
    exact .inl ⟨hcvc, rfl⟩
  · rename_i hcvc
    right
    refine ⟨hcvc, ?_⟩
    obtain ⟨c0, hc0, h⟩ := bind_ok h
    obtain ⟨f, hf, h⟩ := bind_ok h
    obtain ⟨⟨found, did⟩, hfd, h⟩ := bind_ok h
    refine ⟨c0, f, found, did, idx_ok hc0, hf, hfd, ?_⟩
    dsimp only at h ⊢
    generalize countFound found _ = cf at h ⊢
    cases did with
    | true =>
      left
      simp only [if_true] at h
      split at h
      · cases h
      · rename_i hn
        obtain ⟨u, ht, h⟩ := bind_ok h
        cases h
        exact ⟨rfl, hn, ht, rfl⟩
    | false =>
      right
      simp only [Bool.false_eq_true, if_false] at h
      obtain ⟨shape, hsh, h⟩ := bind_ok h
      obtain ⟨u, hu, h⟩ := bind_ok h
      obtain ⟨p0, hp0, h⟩ := bind_ok h
      cases h
      refine ⟨rfl, shape, p0, ?_, ?_, idx_ok hp0, rfl⟩
      · split at hsh
        · cases hsh
        · exact hsh
      · intro h1 h2
        rw [if_pos ⟨h1, h2⟩] at hu
        obtain ⟨b, hb, hu⟩ := bind_ok hu
        cases b with
        | true => simp at hu
        | false => exact hb

end Jvotci
