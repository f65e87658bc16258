import Verif.Lemmas.RsErr
import Verif.SpecRsOwn
import Verif.Props.RsCheck
import Verif.Props.RsApi
import Verif.Props.RsLujvo
import Verif.Props.Cluster

/-!
# The Rust crate refuses alike, and makes the same lujvo with its own analysis (C91)
-/

namespace Jvotci

open Spec

/-- **C91 (refusals).** For a word that is read as vowels, consonants and apostrophes with a vowel at the end (fewer than 180000 letters),
`analyze_brivla` of the Rust crate has an answer or fails with `NotBrivlaError`, never otherwise; and it fails exactly when `analyse_brivla` does
(with `allow_mz`: if there is no mz before b, d, g, m or v), which raises `NotBrivlaError` then. -/
theorem C91_refused (A : RsRest) (n k : Nat) (Y : Settings → Bool → Str → Except RsErr (RsKind × List Str)) (s : Settings) (w : Str)
    (hd : ¬ StrayDot w) (hlet : ∀ c ∈ reading w, Vowel c ∨ Consonant c ∨ c = '\'')
    (hlast : ∃ l, (reading w).getLast? = some l ∧ Vowel l) (hlen : (reading w).length < 180000) (hk : (reading w).length < k) :
    ((∃ r, rsAnalyseFull A (n + 2) Y k s w = .ok r) ∨ rsAnalyseFull A (n + 2) Y k s w = .error .notBrivla) ∧
    ((s.allowMz = true → ∀ c, InitialPair 'z' c → ¬ Occurs ['m', 'z', c] (reading w)) →
      (rsAnalyseFull A (n + 2) Y k s w = .error .notBrivla ↔ analyseBrivla .linked s w = .error .notBrivla)) := by
  have hne : reading w ≠ [] := by
    intro h0
    rw [h0] at hlast
    obtain ⟨l, hl, -⟩ := hlast
    cases hl
  have hwne : w ≠ [] := by rintro rfl; exact hne rfl
  have hy : 'y' ∉ reading w := by
    intro hc
    rcases hlet _ hc with h | h | h <;> revert h <;> decide
  have first : (∃ r, rsAnalyseFull A (n + 2) Y k s w = .ok r) ∨ rsAnalyseFull A (n + 2) Y k s w = .error .notBrivla := by
    rw [(rs_full_reading (A := A) (n := n + 2) (k := k) (Y := Y) (s := s) hd hlet hne).2]
    obtain ⟨k, rfl⟩ : ∃ k', k = k' + 1 := ⟨k - 1, by omega⟩
    cases h : rsAnalyseFull A (n + 2) Y (k + 1) s (reading w) with
    | ok r => exact .inl ⟨r, rfl⟩
    | error e => rw [rs_full_err hlet hlast hlen h]; exact .inr rfl
  refine ⟨first, fun hmz => ?_⟩
  have hsame := fun t ps => C89_same A n k Y s w t ps hd hlet hlast hlen hk hmz
  constructor
  · intro h
    rcases C15_words_without_y_partial .linked s hwne hy with ⟨h1, -⟩ | ⟨h1, -⟩
    · rcases h1 with ⟨t, ps, h1⟩ | h1
      · rw [(hsame t ps).2 h1] at h; cases h
      · exact h1
    · cases h1
  · intro h
    rcases first with ⟨⟨t, ps⟩, h1⟩ | h1
    · rw [(hsame t ps).1 h1] at h; cases h
    · exact h1

/-- The components of C91 are components of C86, for the crate with its own analysis. -/
theorem own_component {A : RsRest} {n k : Nat} {Y : Settings → Bool → Str → Except RsErr (RsKind × List Str)} {s : Settings} {v : Str}
    (h : OwnComponent s v) (hlen : v.length < 180000) (hk : v.length < k) : RsComponent (rsOwn A (n + 2) Y k) s v := by
  have main : (∀ c ∈ v, Vowel c ∨ Consonant c ∨ c = '\'') → (∃ l, v.getLast? = some l ∧ Vowel l) →
      (s.allowMz = true → ∀ c, InitialPair 'z' c → ¬ Occurs ['m', 'z', c] v) →
      analyseBrivla .linked { yHyphens := s.yHyphens, expRafsi := s.expRafsi, allowMz := s.allowMz } v = .error .notBrivla →
      RsComponent (rsOwn A (n + 2) Y k) s v := by
    intro hlet hlast hmz h
    obtain ⟨l, hl, hlv⟩ := hlast
    have hdot : ∀ c ∈ v, c ≠ '.' := by
      rintro c hc rfl
      rcases hlet _ hc with h | h | h <;> revert h <;> decide
    have hd : ¬ StrayDot v := by
      intro h
      cases h with
      | two => exact hdot '.' (by simp) rfl
      | last u h => exact hdot '.' (by simp) rfl
    have hread : reading v = v := reading_lettersY fun c hc => by
      rcases hlet c hc with h | h | h
      · exact .inl h
      · exact .inr (.inl h)
      · exact .inr (.inr (.inl h))
    have hne : v ≠ [] := by rintro rfl; cases hl
    refine .other hne hlet h ?_
    have hr := ((C91_refused A n k Y { yHyphens := s.yHyphens, expRafsi := s.expRafsi, allowMz := s.allowMz } v hd (by rw [hread]; exact hlet)
      (by rw [hread]; exact ⟨l, hl, hlv⟩) (by rw [hread]; exact hlen) (by rw [hread]; exact hk)).2 (by rw [hread]; exact hmz)).2 h
    have hnorm : rsNormalise v = v := by rw [(rsNormalise_iff v).2 hd, hread]
    have hlv' := (isVowel_iff l).2 hlv
    have hlc := not_consonant_of_vowel hlv'
    have hne' : v.isEmpty = false := by cases v with | nil => exact absurd rfl hne | cons a b => rfl
    unfold rsAnalyse
    simp only [hnorm, hne', rsBack_of hl, rsIsConsonant_eq, rsIsVowel_eq, hlc, hlv', Bool.false_eq_true, if_false, Bool.not_true, Bool.not_false, Bool.and_false, Bool.false_and, Bool.true_and]
    by_cases hg : rsIsGismu s.allowMz v = true
    · exfalso
      obtain ⟨k, rfl⟩ : ∃ k', k = k' + 1 := ⟨k - 1, by omega⟩
      unfold rsAnalyseFull rsAnalyseBrivla at hr
      simp only [hnorm, hne', rsBack_of hl, rsIsConsonant_eq, rsIsVowel_eq, hlc, hlv', Bool.false_eq_true, if_false, Bool.not_true, Bool.not_false, Bool.and_false, Bool.false_and, Bool.true_and] at hr
      rw [if_pos hg] at hr
      cases hr
    · rw [if_neg hg]
      exact hr
  cases h with
  | rafsi h1 h2 => exact .rafsi h1 h2
  | gismu h => exact .gismu h
  | refused h1 h2 h3 h4 => exact main h1 h2 h3 h4
  | cmavo hlet hlast hno =>
    refine main hlet hlast ?_ ?_
    · rintro - c hc ⟨a, b, e⟩
      exact hno 'm' 'z' (by decide) (by decide) ⟨a, c :: b, by rw [e]; simp⟩
    · have hread : reading v = v := reading_lettersY fun c hc => by
        rcases hlet c hc with h | h | h
        · exact .inl h
        · exact .inr (.inl h)
        · exact .inr (.inr (.inl h))
      have hy : 'y' ∉ reading v := by
        rw [hread]
        intro hc
        rcases hlet _ hc with h | h | h <;> revert h <;> decide
      obtain ⟨l, hl, hlv⟩ := hlast
      have hne : v ≠ [] := by rintro rfl; cases hl
      rcases C15_words_without_y_partial .linked { yHyphens := s.yHyphens, expRafsi := s.expRafsi, allowMz := s.allowMz } hne hy with ⟨h1, -⟩ | ⟨h1, -⟩
      · rcases h1 with ⟨t, ps, h1⟩ | h1
        · exfalso
          by_cases ht : t = .cmevla
          · subst ht
            have hlc := not_consonant_of_vowel ((isVowel_iff l).2 hlv)
            obtain ⟨m, hm, ha⟩ := analyseR_ok h1
            obtain ⟨-, rfl⟩ := normalise_ok hm
            have hl2 : (reading v).getLast? = some l := by rw [hread]; exact hl
            generalize ht : BType.cmevla = t at ha
            cases ha with
            | gismu => cases ht
            | zihevla => cases ht
            | kaha hl' =>
              rw [hl2] at hl'
              cases hl'
              rw [hlc] at ht
              cases ht
            | parts _ _ _ _ _ _ _ _ h2 => exact absurd (by rw [splitOn_of_not_mem hy]; rfl) h2
          · obtain ⟨a, b, ha, hb, ho⟩ := C36_break_partial h1 ht rfl
            rw [hread] at ho
            rcases hb with hb | rfl
            · exact hno a b ha hb ho
            · obtain ⟨p, q, e⟩ := ho
              rw [hread] at hy
              exact hy (by rw [e]; simp)
        · exact h1
      · cases h1

/-- **C91 (get_lujvo).** A tanru of two words or more (fewer than 60000, of fewer than 180000 letters each) in which no word has a stray full stop, no
character is U+001C to U+001F, and each word is a CLL rafsi between dashes, a gismu, a cmavo, or another word without y, ending in a vowel, that
the Python version does not take for a brivla: `get_lujvo` of the Rust crate, which here asks its own `analyze_brivla`, makes the same lujvo or
cmevla with the same score and rafsi as the Python version, or both find none. -/
theorem C91_get_lujvo (A : RsRest) (n k : Nat) (Y : Settings → Bool → Str → Except RsErr (RsKind × List Str)) (rs : RsSettings) (s : Settings)
    (hs : s = { yHyphens := rs.yHyphens, consonants := rs.consonants, expRafsi := rs.expRafsi, glides := rs.glides, allowMz := rs.allowMz })
    (t : Str) (ws : List Str) (hws : Spaced t ws) (ht : ∀ c ∈ t, c.toNat ∉ [0x1C, 0x1D, 0x1E, 0x1F]) (hd : ∀ w ∈ ws, ¬ StrayDot w)
    (hc : ∀ w ∈ ws, OwnComponent s (reading w)) (hlen : ∀ w ∈ ws, (reading w).length < 180000) (hk : ∀ w ∈ ws, (reading w).length < k)
    (h2 : 2 ≤ ws.length) (hmax : ws.length < 60000) :
    (∃ r, getLujvoWithAnalytics .linked s rs.generateCmevla (.str t) = .ok r ∧ getLujvo .linked s rs.generateCmevla (.str t) = .ok r.1 ∧
        rsGetLujvoWithAnalytics (rsOwn A (n + 2) Y k) (n + 2) rs t = .ok r ∧ rsGetLujvo (rsOwn A (n + 2) Y k) (n + 2) rs t = .ok r.1) ∨
      (getLujvoWithAnalytics .linked s rs.generateCmevla (.str t) = .error .noLujvo ∧
        getLujvo .linked s rs.generateCmevla (.str t) = .error .noLujvo ∧
        rsGetLujvoWithAnalytics (rsOwn A (n + 2) Y k) (n + 2) rs t = .error .noLujvo ∧ rsGetLujvo (rsOwn A (n + 2) Y k) (n + 2) rs t = .error .noLujvo) :=
  C87_get_lujvo (rsOwn A (n + 2) Y k) n rs s hs t ws hws ht hd (fun w hw => own_component (hc w hw) (hlen w hw) (hk w hw)) h2 hmax

/-- A rest that takes nothing for a brivla. -/
private def emptyRest : RsRest := ⟨fun _ _ => .error .notBrivla, fun _ _ => .error .notZihevla⟩

private def refuseY : Settings → Bool → Str → Except RsErr (RsKind × List Str) := fun _ _ _ => .error .notBrivla

/-- A gismu, a cmavo, a word that falls apart and a rafsi are such components; these are answers of the crate. -/
example : (∀ v ∈ [s%"mlatu", s%"na'e", s%"tosmabru", s%"-mlat-"], OwnComponent {} v) ∧
    rsGetLujvo (rsOwn emptyRest 2 refuseY 9) 2 {} s%"na'e klama" = .ok s%"nalkla" ∧
    rsGetLujvo (rsOwn emptyRest 2 refuseY 9) 2 {} s%"tosmabru klama" = .error .noLujvo ∧
    rsAnalyseFull emptyRest 2 refuseY 9 {} s%"tosmabru" = .error .notBrivla ∧
    rsAnalyseFull emptyRest 2 refuseY 9 {} s%"spageti" = .ok (.zihevla, [s%"spageti"]) := by
  refine ⟨?_, by decide +kernel, by decide +kernel, by decide +kernel, by decide +kernel⟩
  intro v hv
  simp at hv
  rcases hv with rfl | rfl | rfl | rfl
  · exact .gismu (isGismu_iff.1 (by decide +kernel))
  · refine .cmavo (by decide) ⟨'e', by decide, by decide⟩ ?_
    rintro a b ha hb ⟨u, w, e⟩
    have h1 : (s%"na'e")[u.length]? = some a := by rw [e]; simp
    have h2 : (s%"na'e")[u.length + 1]? = some b := by rw [e]; simp
    have hu : u.length < 4 := by
      have := congrArg List.length e
      simp at this
      omega
    generalize u.length = i at h1 h2 hu
    have : i = 0 ∨ i = 1 ∨ i = 2 ∨ i = 3 := by omega
    rcases this with rfl | rfl | rfl | rfl <;> cases h1 <;> cases h2 <;> revert ha hb <;> decide
  · exact .refused (by decide) ⟨'u', by decide, by decide⟩ (by simp) (by decide +kernel)
  · exact .rafsi (x := s%"mlat") ⟨by decide, 0, 0, by decide⟩ (isValidRafsi_iff.1 (by decide +kernel))

end Jvotci
