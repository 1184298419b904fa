import Verif.Lemmas.Layers

/-!
Auxiliary lemmas about enablers.
-/

namespace Verif

theorem nodup_extractEnabled (e v p) (en : Dict Str Str) (h : (Dict.keys en).Nodup) :
    (Dict.keys (extractEnabled e v p en)).Nodup := by
  unfold extractEnabled
  split
  · generalize splitOn ',' (v.drop p.length) = l
    induction l generalizing en with
    | nil => exact h
    | cons a l ih => exact ih _ (Dict.nodup_keys_set en a e h)
  · exact h

theorem nodup_addEnabled (e o v) (en : Dict Str Str) (h : (Dict.keys en).Nodup) :
    (Dict.keys (addEnabled e en o v)).Nodup := by
  cases o <;> simp only [addEnabled]
  all_goals first
    | exact h
    | exact nodup_extractEnabled _ _ _ _ (nodup_extractEnabled _ _ _ _ h)
    | exact nodup_extractEnabled _ _ _ _ h
    | exact Dict.nodup_keys_set _ _ _ h

theorem nodup_foldl_addEnabled (e o) (vs : List Str) : ∀ (en : Dict Str Str), (Dict.keys en).Nodup →
    (Dict.keys (vs.foldl (fun acc v => addEnabled e acc o v) en)).Nodup := by
  induction vs with
  | nil => intro en h; exact h
  | cons v vs ih => intro en h; exact ih _ (nodup_addEnabled e o v en h)

theorem nodup_enablersOf (e : Option Str) (l : List (Option Arg)) :
    (Dict.keys (enablersOf e l)).Nodup := by
  cases e with
  | none => simp [enablersOf, Dict.keys]
  | some e =>
    simp only [enablersOf]
    have : ∀ (l : List (Option Arg)) (en : Dict Str Str), (Dict.keys en).Nodup →
        (Dict.keys (l.foldl (fun acc a =>
          match a with
          | none => acc
          | some a =>
            match a.val with
            | .list vs => vs.foldl (fun acc v => addEnabled e acc a.option v) acc
            | .str s => addEnabled e acc a.option s
            | _ => acc) en)).Nodup := by
      intro l
      induction l with
      | nil => intro en h; exact h
      | cons a l ih =>
        intro en h
        rw [List.foldl_cons]
        apply ih
        cases a with
        | none => exact h
        | some a =>
          obtain ⟨o, v⟩ := a
          cases v <;> simp only
          all_goals first
            | exact h
            | exact nodup_foldl_addEnabled _ _ _ _ h
            | exact nodup_addEnabled _ _ _ _ h
    exact this l [] (by simp [Dict.keys])

end Verif
