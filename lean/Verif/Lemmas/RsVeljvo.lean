import Verif.Lemmas.RsFull
import Verif.Props.Words

/-!
# Lemmas: the words that the Rust crate names for rafsi
-/

namespace Jvotci

open Spec

theorem rsSelf_analyse {A : RsRest} {n k : Nat} {Y : Settings → Bool → Str → Except RsErr (RsKind × List Str)} {s : Settings} {w : Str} :
    rsAnalyseBrivla (rsSelf A n Y k) n s w = rsAnalyseFull A n Y (k + 1) s w := rfl

/-- `is_brivla` of words without y. -/
theorem rs_isBrivla_word {A : RsRest} {n k : Nat} {Y : Settings → Bool → Str → Except RsErr (RsKind × List Str)} {s : Settings} {v : Str}
    (hlet : ∀ c ∈ v, Vowel c ∨ Consonant c ∨ c = '\'') (hlast : ∃ l, v.getLast? = some l ∧ (Vowel l ∨ Consonant l))
    (hlen : v.length < 180000) (hk : v.length ≤ k) (hmz : s.allowMz = true → NoMzCc v) :
    isBrivla .linked s v = .ok (rsIsBrivla (rsSelf A (n + 2) Y k) (n + 2) s v) := by
  obtain ⟨l, hl, hlv⟩ := hlast
  have hne : v ≠ [] := by rintro rfl; cases hl
  have hread : reading v = v := reading_lettersY fun c hc => by
    rcases hlet c hc with h | h | h
    · exact .inl h
    · exact .inr (.inl h)
    · exact .inr (.inr (.inl h))
  have hy : 'y' ∉ v := by
    intro hc
    rcases hlet _ hc with h | h | h <;> revert h <;> decide
  have hdot : ∀ c ∈ v, c ≠ '.' := by
    rintro c hc rfl
    rcases hlet _ hc with h | h | h <;> revert h <;> decide
  have hstray : ¬ StrayDot v := by
    intro h
    cases h with
    | two => exact hdot '.' (by simp) rfl
    | last u h => exact hdot '.' (by simp) rfl
  have hpy : (∃ t ps, analyseBrivla .linked s v = .ok (t, ps)) ∨ analyseBrivla .linked s v = .error .notBrivla := by
    rcases C15_words_without_y_partial .linked s hne (by rw [hread]; exact hy) with ⟨h1, -⟩ | ⟨h1, -⟩
    · exact h1
    · cases h1
  unfold isBrivla rsIsBrivla
  rw [rsSelf_analyse]
  rcases hlv with hlv | hlc
  · have IH := rs_full (A := A) (n := n) (Y := Y) (k + 1) s v (by omega) hlet ⟨l, hl, hlv⟩ hlen
    rcases hpy with ⟨t, ps, h1⟩ | h1
    · rw [h1, (IH t ps).1 h1]
    · rw [h1]
      cases h2 : rsAnalyseFull A (n + 2) Y (k + 1) s v with
      | error e => rfl
      | ok r =>
        have := (IH r.1 r.2).2 hmz h2
        rw [h1] at this
        cases this
  · have hnv : ¬ Vowel l := fun h => not_vowel_consonant h hlc
    have hnorm : rsNormalise v = v := by rw [(rsNormalise_iff v).2 hstray, hread]
    have hyany : v.any (· == 'y') = false := by
      rw [Bool.eq_false_iff]
      intro h
      simp at h
      exact hy h
    have hrs : ∀ t ps, rsAnalyseFull A (n + 2) Y (k + 1) s v = .ok (t, ps) → t = .cmevla := by
      intro t ps h
      unfold rsAnalyseFull rsAnalyseBrivla at h
      simp only [hnorm, rsBack_of hl, rsIsConsonant_eq, (isConsonant_iff l).2 hlc, Bool.not_true, Bool.false_and, Bool.true_and] at h
      obtain ⟨-, h⟩ := rs_ite_ok h
      obtain ⟨-, h⟩ := rs_ite_ok h
      obtain ⟨-, h⟩ := rs_ite_ok h
      rw [if_neg (by simp)] at h
      have hafter : ∀ r, rsAfter A (n + 2) (rsAnalyseFull A (n + 2) Y k) Y s true v ≠ .ok r := by
        intro r hr
        unfold rsAfter at hr
        obtain ⟨-, hr⟩ := rs_ite_ok hr
        rw [hyany] at hr
        cases hr
      have hafter' : ∀ r : BType × List Str, (match rsAfter A (n + 2) (rsAnalyseFull A (n + 2) Y k) Y s true v with
          | .ok (k, parts) => .ok (k.type, parts)
          | .error e => .error e : Except RsErr (BType × List Str)) ≠ .ok r := by
        intro r hr
        cases h : rsAfter A (n + 2) (rsAnalyseFull A (n + 2) Y k) Y s true v with
        | ok r => exact hafter r h
        | error e => rw [h] at hr; cases hr
      cases hj : rsJvokaha A (rsSlinkuhi A (n + 2)) s.yHyphens s.consonants s.glides s.allowMz v with
      | ok ps' =>
        rw [hj] at h
        cases h
        rfl
      | error e =>
        rw [hj] at h
        cases e <;> first
          | cases h
          | exact absurd h (hafter' _)
    have hpy' : (match analyseBrivla .linked s v with
        | .ok (t, _) => .ok (decide (t ≠ .cmevla))
        | .error .notBrivla => .ok false
        | .error e => .error e : Except Err Bool) = .ok false := by
      rcases hpy with ⟨t, ps, h1⟩ | h1
      · rw [h1]
        obtain ⟨l', hl', h3⟩ := C02_type_by_last_letter h1
        rw [hread, hl] at hl'
        cases hl'
        rcases h3 with ⟨rfl, -⟩ | ⟨-, h3⟩
        · rfl
        · exact absurd h3 hnv
      · rw [h1]
    refine hpy'.trans ?_
    cases h2 : rsAnalyseFull A (n + 2) Y (k + 1) s v with
    | error e => rfl
    | ok r =>
      obtain ⟨t, ps⟩ := r
      rw [hrs t ps h2]
      rfl

/-- There are no three consonants in a row. -/
def NoCcc (w : Str) : Prop := ∀ a b c, Consonant a → Consonant b → Consonant c → ¬ Occurs [a, b, c] w

theorem noCcc_nil : NoCcc [] := by
  rintro a b c - - - ⟨u, v, e⟩
  simp at e

theorem noCcc_v {x : Char} {w : Str} (h : NoCcc w) (hx : ¬ Consonant x) : NoCcc (x :: w) := by
  rintro a b c ha hb hc ⟨u, v, e⟩
  cases u with
  | nil => simp at e; exact hx (e.1 ▸ ha)
  | cons d u => simp at e; exact h a b c ha hb hc ⟨u, v, by rw [e.2]; simp⟩

theorem noCcc_cv {x y : Char} {w : Str} (h : NoCcc w) (hy : ¬ Consonant y) : NoCcc (x :: y :: w) := by
  rintro a b c ha hb hc ⟨u, v, e⟩
  cases u with
  | nil => simp at e; exact hy (e.2.1 ▸ hb)
  | cons d u => simp at e; exact noCcc_v h hy a b c ha hb hc ⟨u, v, by rw [e.2]; simp⟩

theorem noCcc_ccv {x y z : Char} {w : Str} (h : NoCcc w) (hz : ¬ Consonant z) : NoCcc (x :: y :: z :: w) := by
  rintro a b c ha hb hc ⟨u, v, e⟩
  cases u with
  | nil => simp at e; exact hz (e.2.2.1 ▸ hc)
  | cons d u => simp at e; exact noCcc_cv h hz a b c ha hb hc ⟨u, v, by rw [e.2]; simp⟩

theorem rafsi_word {mz : Bool} {p : Str} (h : Rafsi mz p) :
    (∀ c ∈ p, Vowel c ∨ Consonant c ∨ c = '\'') ∧ (∃ l, p.getLast? = some l ∧ (Vowel l ∨ Consonant l)) ∧ p.length ≤ 5 ∧
    NoMzCc p ∧ NoMzCc (p ++ s%"a") := by
  have key : ∀ w : Str, (∀ a b c, Consonant a → Consonant b → Consonant c → ¬ Occurs [a, b, c] w) → NoMzCc w :=
    fun w h c hc => h 'm' 'z' c (by decide) (by decide) (initial_consonants hc).2
  have hsub : ∀ w : Str, NoMzCc (w ++ s%"a") → NoMzCc w := by
    rintro w h c hc ⟨u, v, e⟩
    exact h c hc ⟨u, v ++ s%"a", by rw [e]; simp⟩
  suffices h2 : (∀ c ∈ p, Vowel c ∨ Consonant c ∨ c = '\'') ∧ (∃ l, p.getLast? = some l ∧ (Vowel l ∨ Consonant l)) ∧ p.length ≤ 5 ∧
      ∀ a b c, Consonant a → Consonant b → Consonant c → ¬ Occurs [a, b, c] (p ++ s%"a") by
    exact ⟨h2.1, h2.2.1, h2.2.2.1, hsub _ (key _ h2.2.2.2), key _ h2.2.2.2⟩
  have hav : ¬ Consonant 'a' := by decide
  have hap : ¬ Consonant '\'' := by decide
  have nv : ∀ {c}, Vowel c → ¬ Consonant c := fun h => not_vowel_consonant h
  have hA : NoCcc s%"a" := noCcc_v noCcc_nil hav
  cases h with
  | cvv h1 h2 h3 =>
    exact ⟨by simp [h1, h2, h3], ⟨_, rfl, .inl h3⟩, by simp, noCcc_cv (noCcc_v hA (nv h3)) (nv h2)⟩
  | cvhv h1 h2 h3 =>
    exact ⟨by simp [h1, h2, h3], ⟨_, rfl, .inl h3⟩, by simp, noCcc_cv (noCcc_v (noCcc_v hA (nv h3)) hap) (nv h2)⟩
  | cvc h1 h2 h3 =>
    exact ⟨by simp [h1, h2, h3], ⟨_, rfl, .inr h3⟩, by simp, noCcc_cv (noCcc_cv noCcc_nil hav) (nv h2)⟩
  | ccv h1 h2 =>
    obtain ⟨k1, k2⟩ := initial_consonants h1
    exact ⟨by simp [k1, k2, h2], ⟨_, rfl, .inl h2⟩, by simp, noCcc_ccv hA (nv h2)⟩
  | cvcc h1 h2 h3 =>
    exact ⟨by simp [h1, h2, h3.1, h3.2.1], ⟨_, rfl, .inr h3.2.1⟩, by simp, noCcc_cv (noCcc_ccv noCcc_nil hav) (nv h2)⟩
  | ccvc h1 h2 h3 =>
    obtain ⟨k1, k2⟩ := initial_consonants h1
    exact ⟨by simp [k1, k2, h2, h3], ⟨_, rfl, .inr h3⟩, by simp, noCcc_ccv (noCcc_cv noCcc_nil hav) (nv h2)⟩
  | gismu h =>
    cases h with
    | cvccv h1 h2 h3 h4 =>
      exact ⟨by simp [h1, h2, h3.1, h3.2.1, h4], ⟨_, rfl, .inl h4⟩, by simp, noCcc_cv (noCcc_ccv hA (nv h4)) (nv h2)⟩
    | ccvcv h1 h2 h3 h4 =>
      obtain ⟨k1, k2⟩ := initial_consonants h1
      exact ⟨by simp [k1, k2, h2, h3, h4], ⟨_, rfl, .inl h4⟩, by simp, noCcc_ccv (noCcc_cv hA (nv h4)) (nv h2)⟩

theorem rs_formatPiece {A : RsRest} {n k : Nat} {Y : Settings → Bool → Str → Except RsErr (RsKind × List Str)} {s : Settings} {pieces : List Str}
    (hk : 6 ≤ k) (hne : ∀ p ∈ pieces, p ≠ []) {i : Nat} (hil : i < pieces.length) {p : Str} (hp : Rafsi s.allowMz p) :
    formatPiece .linked s pieces i p = .ok (rsFormatPiece (rsSelf A (n + 2) Y k) (n + 2) s pieces i p) := by
  obtain ⟨hlet, hlast, hlen, hm1, hm2⟩ := rafsi_word hp
  have h1 := rs_isBrivla_word (A := A) (n := n) (k := k) (Y := Y) (s := { yHyphens := s.yHyphens, allowMz := s.allowMz }) hlet hlast (by omega) (by omega) (fun _ => hm1)
  have h2 := rs_isBrivla_word (A := A) (n := n) (k := k) (Y := Y) (s := { yHyphens := s.yHyphens, allowMz := s.allowMz }) (v := p ++ s%"a") (by
    intro c hc
    rcases List.mem_append.1 hc with hc | hc
    · exact hlet c hc
    · simp at hc
      rw [hc]
      exact .inl (by decide)) ⟨'a', by simp, .inl (by decide)⟩ (by simp; omega) (by simp; omega) (fun _ => hm2)
  unfold formatPiece rsFormatPiece
  rw [rsSearchSelrafsi_eq]
  cases hs : searchSelrafsi p with
  | some g => rfl
  | none =>
    dsimp only
    rw [h1, h2]
    generalize rsIsBrivla (rsSelf A (n + 2) Y k) (n + 2) { yHyphens := s.yHyphens, allowMz := s.allowMz } p = b1
    generalize rsIsBrivla (rsSelf A (n + 2) Y k) (n + 2) { yHyphens := s.yHyphens, allowMz := s.allowMz } (p ++ s%"a") = b2
    by_cases hi : i + 2 < pieces.length
    · have hget : pieces[i + 1]? = some pieces[i + 1] := List.getElem?_eq_getElem (by omega)
      have hx : pieces[i + 1] ≠ [] := hne _ (List.getElem_mem _)
      obtain ⟨c, t, e⟩ := List.exists_cons_of_ne_nil hx
      rw [if_pos hi, hget, e]
      simp only [Option.getD_some, show idx (c :: t) 0 = .ok c from rfl, ok_bind, rsAt_zero]
      have e1 : decide (pieces.length ≥ 2) = true := by simp; omega
      have e2 : decide (i < pieces.length - 2) = true := by simp; omega
      have e3 : (i == pieces.length - 1) = false := by simp; omega
      rw [e1, e2, e3, if_neg (show ¬ i + 1 = pieces.length by omega)]
      by_cases hc : c = 'y'
      · subst hc
        cases b1 <;> cases b2 <;> rfl
      · simp only [show (c == 'y') = false by simp [hc]]
        cases b1 <;> cases b2 <;> rfl
    · rw [if_neg hi]
      have e2 : (decide (pieces.length ≥ 2) && decide (i < pieces.length - 2)) = false := by
        rw [Bool.eq_false_iff]
        simp
        omega
      rw [e2]
      by_cases h3 : i + 1 = pieces.length
      · have e3 : (i == pieces.length - 1) = true := by simp; omega
        rw [e3, if_pos h3]
        cases b1 <;> cases b2 <;> rfl
      · rw [if_neg h3]
        have e3 : (i == pieces.length - 1) = false := by simp; omega
        rw [e3]
        cases b1 <;> cases b2 <;> rfl

theorem rs_selrafsi_all {A : RsRest} {n k : Nat} {Y : Settings → Bool → Str → Except RsErr (RsKind × List Str)} {s : Settings} {pieces : List Str}
    (hk : 6 ≤ k) (hne : ∀ p ∈ pieces, p ≠ []) : ∀ (i : Nat) (ps : List Str), i + ps.length ≤ pieces.length → (∀ p ∈ ps, Hyphen p ∨ Rafsi s.allowMz p) →
    selrafsiFrom .linked s pieces i ps = .ok (rsSelrafsiFrom (rsSelf A (n + 2) Y k) (n + 2) s pieces i ps)
  | _, [], _, _ => rfl
  | i, p :: ps, hi, h => by
    have ih := rs_selrafsi_all (A := A) (n := n) (Y := Y) (s := s) hk hne (i + 1) ps (by simp at hi; omega) fun q hq => h q (by simp [hq])
    unfold selrafsiFrom rsSelrafsiFrom
    by_cases hh : (HYPHENS.contains p || p.isEmpty) = true
    · rw [if_pos hh, if_pos hh]
      exact ih
    · rw [if_neg hh, if_neg hh]
      have hr : Rafsi s.allowMz p := by
        rcases h p (by simp) with k | k
        · exfalso
          apply hh
          unfold Hyphen at k
          simp at k
          rcases k with rfl | rfl | rfl | rfl | rfl | rfl <;> decide
        · exact k
      rw [rs_formatPiece (A := A) (n := n) (Y := Y) hk hne (by simp at hi; omega) hr, ok_bind, ih, ok_bind]

end Jvotci
