import Verif.SpecJs
import Verif.Lemmas.JsErrApi

/-!
C80: the exceptions of the JavaScript package.
-/

namespace Jvotci
open Spec

theorem jsSplitAux_two : ∀ (acc s : Str), (∃ c ∈ s, jsIsSpace c = true) → 2 ≤ (jsSplitAux acc s).length := by
  intro acc s
  induction s generalizing acc with
  | nil => rintro ⟨c, h, -⟩; cases h
  | cons c cs ih =>
    rintro ⟨d, hd, hs⟩
    unfold jsSplitAux
    split
    · have : 1 ≤ (jsSplitAux [] (cs.dropWhile jsIsSpace)).length := by
        generalize ([] : Str) = a
        generalize cs.dropWhile jsIsSpace = t
        induction t generalizing a with
        | nil => simp [jsSplitAux]
        | cons x xs ih =>
          unfold jsSplitAux
          split
          · simp
          · exact ih _
      simp
      omega
    · rename_i hc
      refine ih _ ?_
      rcases List.mem_cons.1 hd with rfl | hd
      · exact absurd hs hc
      · exact ⟨d, hd, hs⟩

theorem dropWhile_keeps {p : Char → Bool} : ∀ {u : Str} (c : Char) (v : Str), (∃ d ∈ u, p d = false) → ∃ d u', (u ++ c :: v).dropWhile p = u' ++ c :: v ∧ d ∈ u' ∧ p d = false
  | [], _, _, h => by obtain ⟨d, h, -⟩ := h; cases h
  | x :: u, c, v, h => by
    by_cases hx : p x = true
    · rw [List.cons_append, List.dropWhile_cons_of_pos hx]
      refine dropWhile_keeps c v ?_
      obtain ⟨d, hd, hp⟩ := h
      rcases List.mem_cons.1 hd with rfl | hd
      · rw [hx] at hp; cases hp
      · exact ⟨d, hd, hp⟩
    · rw [List.cons_append, List.dropWhile_cons_of_neg hx]
      exact ⟨x, x :: u, rfl, List.mem_cons_self .., by simpa using hx⟩

theorem several_length {t : Tanru} (h : SeveralWords jsIsSpace t) : 2 ≤ (jsProcessTanru t).length := by
  unfold jsProcessTanru
  rw [List.length_map]
  match t, h with
  | .list l, h => exact h
  | .str w, h =>
    obtain ⟨u, c, v, rfl, hc, hu, d, hd, hv⟩ := h
    refine jsSplitAux_two _ _ ⟨c, ?_, hc⟩
    unfold stripBoth
    obtain ⟨-, u', e, -⟩ := dropWhile_keeps c v hu
    rw [e]
    have : (u' ++ c :: v).reverse = v.reverse ++ c :: u'.reverse := by simp
    rw [this]
    obtain ⟨-, v', e, -⟩ := dropWhile_keeps (u := v.reverse) c u'.reverse ⟨d, by simpa using hd, hv⟩
    rw [e]
    simp

/-- **C80.** Taking words apart in JavaScript, `analyseBrivla`, `getVeljvo` and `scoreLujvo` throw nothing but NotBrivlaError and
DecompositionError, for every string and all options; the recursion ends. -/
theorem C80_analyse (s : Settings) (w : Str) :
    (∀ e, jsAnalyseBrivla s w = .error e → e = .notBrivla ∨ e = .decomposition) ∧
    (∀ e, jsGetVeljvo s w = .error e → e = .notBrivla ∨ e = .decomposition) ∧
    (∀ e, jsScoreLujvo s w = .error e → e = .notBrivla ∨ e = .decomposition) := by
  refine ⟨fun e h => ?_, fun e h => ?_, fun e h => ?_⟩
  · simpa [jsAnalyseErrs] using jerrs_analyseBrivla s w e h
  · simpa [jsAnalyseErrs] using jerrs_getVeljvo s w e h
  · simpa [jsAnalyseErrs] using jerrs_scoreLujvo s w e h

/-- **C80.** `isBrivla` throws nothing but DecompositionError. -/
theorem C80_is_brivla (s : Settings) (w : Str) (e : JsErr) (h : jsIsBrivla s w = .error e) : e = .decomposition := by
  simpa using jerrs_isBrivla s w e h

theorem jsLujvoErrs_cases {e : JsErr} (h : e ∈ jsLujvoErrs) :
    e = .noLujvo ∨ e = .nonLojban ∨ e = .notZihevla ∨ e = .notBrivla ∨ e = .decomposition ∨ e = .invalidCluster := by
  simpa [jsLujvoErrs] using h

/-- **C80.** `getLujvo` and `getLujvoWithAnalytics` throw nothing but the exceptions of the package and `TypeError`, for every tanru
and all options; the recursion ends, and no plain `Error` is thrown. -/
theorem C80_get_lujvo (s : Settings) (g : Bool) (t : Tanru) (e : JsErr)
    (h : jsGetLujvoWithAnalytics s g t = .error e ∨ jsGetLujvo s g t = .error e) :
    e = .type ∨ e = .noLujvo ∨ e = .nonLojban ∨ e = .notZihevla ∨ e = .notBrivla ∨ e = .decomposition ∨ e = .invalidCluster := by
  have key : JErrs (.type :: jsLujvoErrs) (jsGetLujvo s g t) := .bind (jerrs_getLujvoWithAnalytics s g t).1 fun _ _ => .ok
  have : e ∈ JsErr.type :: jsLujvoErrs := h.elim ((jerrs_getLujvoWithAnalytics s g t).1 e) (key e)
  exact (List.mem_cons.1 this).imp_right jsLujvoErrs_cases

/-- **C80.** Without `exp_rafsi_shapes`, and with more than one word, no `TypeError` is thrown. -/
theorem C80_no_type_error (s : Settings) (g : Bool) (t : Tanru) (hexp : s.expRafsi = false) (ht : SeveralWords jsIsSpace t) (e : JsErr)
    (h : jsGetLujvoWithAnalytics s g t = .error e ∨ jsGetLujvo s g t = .error e) :
    e = .noLujvo ∨ e = .nonLojban ∨ e = .notZihevla ∨ e = .notBrivla ∨ e = .decomposition ∨ e = .invalidCluster := by
  have key := (jerrs_getLujvoWithAnalytics s g t).2 hexp (several_length ht)
  have key' : JErrs jsLujvoErrs (jsGetLujvo s g t) := .bind key fun _ _ => .ok
  exact jsLujvoErrs_cases (h.elim (key e) (key' e))

/-- **C80.** `TypeError` is thrown for one word, and with `exp_rafsi_shapes` for `-st-` beside another word. -/
theorem C80_type_error :
    jsGetLujvo {} false (.str s%"klama") = .error .type ∧
    jsGetLujvo { expRafsi := true } false (.str s%"-st- klama") = .error .type := by
  decide +kernel

-- Both exceptions occur; on the first two words Python raises IndexError.
example : jsAnalyseBrivla {} [] = .error .notBrivla ∧ jsAnalyseBrivla {} s%"ba'yyla" = .error .notBrivla ∧
    jsAnalyseBrivla {} s%"laty'aoa" = .error .decomposition ∧ jsIsBrivla {} s%"laty'aoa" = .error .decomposition ∧
    jsGetVeljvo {} s%"klama" = .error .decomposition := by
  decide +kernel

example : SeveralWords jsIsSpace (.str s%" mlatu  klama") ∧
    jsGetLujvo {} false (.str s%" mlatu  klama") = .ok s%"latkla" ∧
    jsGetLujvo {} false (.str s%"qlama klama") = .error .nonLojban ∧
    jsGetLujvo {} false (.list [s%"mlatu", s%"spaiia"]) = .error .noLujvo ∧
    jsGetLujvo {} false (.list [s%"-spa'i-", s%"klama"]) = .error .notZihevla := by
  refine ⟨⟨s%" mlatu", ' ', s%" klama", rfl, rfl, ⟨'m', by decide, rfl⟩, 'k', by decide, rfl⟩, ?_⟩
  decide +kernel

end Jvotci
