import Verif.Lemmas.Fix

/-!
# Helper lemmas: each word is listed once in the rafsi table
-/

namespace Jvotci

theorem table_keys : (RAFSI_LIST.map (fun e => code e.1)).Nodup := bucketsB_iff (by decide +kernel)

theorem lookup_of_mem {l : List (Str × List Str)} (hn : (l.map (fun e => code e.1)).Nodup) {v : Str} {rs : List Str}
    (h : (v, rs) ∈ l) : l.lookup v = some rs := by
  induction l with
  | nil => cases h
  | cons e l ih =>
    rw [List.map_cons, List.nodup_cons] at hn
    rcases List.mem_cons.1 h with rfl | h'
    · simp
    · obtain ⟨w, rs'⟩ := e
      have : v ≠ w := by
        rintro rfl
        exact hn.1 (List.mem_map.2 ⟨(v, rs), h', rfl⟩)
      rw [List.lookup_cons]
      have : (v == w) = false := by simpa using this
      rw [this]
      exact ih hn.2 h'

theorem lookup_table {v x : Str} : x ∈ (RAFSI_LIST.lookup v).getD [] ↔ ∃ rs, (v, rs) ∈ RAFSI_LIST ∧ x ∈ rs := by
  constructor
  · intro h
    cases hlk : RAFSI_LIST.lookup v with
    | none => rw [hlk] at h; cases h
    | some rs => rw [hlk] at h; exact ⟨rs, lookup_mem hlk, h⟩
  · rintro ⟨rs, h, hx⟩
    rw [lookup_of_mem table_keys h]
    exact hx

end Jvotci
