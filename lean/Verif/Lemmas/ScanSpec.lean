/-
Sizes of the values in the maps: a payload is an argument of a command.
-/
import Verif.Lemmas.UserSpec
import Verif.Lemmas.SeqSpec
import Verif.Spec.Bounds
namespace Zdb

theorem KV.put_len {m : KV} {k p : Bytes} {t B : Nat} (h : ∀ x ∈ m, x.2.payload.length ≤ B) (hp : p.length ≤ B) :
    ∀ x ∈ m.put k p t, x.2.payload.length ≤ B := by
  intro x hx
  rcases List.mem_append.1 hx with hx | hx
  · exact h x (List.mem_filter.1 hx).1
  · simp at hx; subst hx; exact hp

theorem specEvent_len {m : KV} {e : NsEvent} (he : EvOK e) (h : ∀ x ∈ m, x.2.payload.length ≤ 2 ^ 23) :
    ∀ x ∈ (specEvent m e).1, x.2.payload.length ≤ 2 ^ 23 := by
  cases e with
  | cmd c d argv =>
    have ha := he.2.size
    have hset : ∀ w st k p t, p ∈ argv → ∀ x ∈ (specSet c.conf w st m k p t).1, x.2.payload.length ≤ 2 ^ 23 := by
      intro w st k p t hp x hx
      unfold specSet at hx
      split at hx
      · exact h x hx
      · split at hx
        · exact h x hx
        · split at hx
          · exact h x hx
          · split at hx
            · exact h x hx
            · split at hx
              · exact h x hx
              · split at hx
                · exact h x hx
                · split at hx
                  · exact h x hx
                  · exact KV.put_len h (ha p hp) x hx
    have hdel : ∀ w st k, ∀ x ∈ (specDel c.conf w st m k).1, x.2.payload.length ≤ 2 ^ 23 := by
      intro w st k x hx
      unfold specDel at hx
      split at hx
      · exact h x hx
      · split at hx
        · exact h x hx
        · split at hx
          · exact h x hx
          · split at hx
            · exact h x hx
            · split at hx
              · exact h x hx
              · exact h x (List.mem_filter.1 hx).1
    by_cases hw : d.writes = true
    · cases d <;> simp [DsCmd.writes] at hw
      · simp only [specEvent, specCmd]
        split
        · exact hset _ _ _ _ _ (by simp)
        · split
          · exact hset _ _ _ _ _ (by simp)
          · exact h
        · exact h
      · simp only [specEvent, specCmd]
        split
        · split
          · exact h
          · exact hdel _ _ _
        · split
          · exact hdel _ _ _
          · exact h
        · exact h
    · simp only [specEvent]
      rw [specCmd_fst_of_not_writes c m d argv (by simpa using hw)]
      exact h
  | foreign => exact h
  | reload => exact h

/-- No payload of the map is longer than an argument can be. -/
theorem specRun_len {es : List NsEvent} : ∀ {m : KV}, (∀ e ∈ es, EvOK e) →
    (∀ x ∈ m, x.2.payload.length ≤ 2 ^ 23) → ∀ x ∈ specRun m es, x.2.payload.length ≤ 2 ^ 23 := by
  induction es with
  | nil => intro m _ h; exact h
  | cons e es ih =>
    intro m he h
    exact ih (fun e' h' => he e' (List.mem_cons_of_mem _ h')) (specEvent_len (he e (List.mem_cons_self ..)) h)

theorem specSeqEvent_len {m : Slots} {e : NsEvent} (he : EvOK e) (h : ∀ x ∈ m, slotSize x ≤ 2 ^ 23) :
    ∀ x ∈ (specSeqEvent m e).1, slotSize x ≤ 2 ^ 23 := by
  cases e with
  | cmd c d argv =>
    have ha := he.2.size
    have hsetx : ∀ (k : Bytes) (y : Option Val), slotSize y ≤ 2 ^ 23 → ∀ x ∈ m.set (fromLE k) y, slotSize x ≤ 2 ^ 23 := by
      intro k y hy x hx
      rcases List.mem_or_eq_of_mem_set hx with hx | rfl
      · exact h x hx
      · exact hy
    have hset : ∀ w st k p t, p ∈ argv → ∀ x ∈ (specSeqSet c.conf w st m k p t).1, slotSize x ≤ 2 ^ 23 := by
      intro w st k p t hp x hx
      unfold specSeqSet at hx
      split at hx
      · exact h x hx
      · split at hx
        · exact h x hx
        · split at hx
          · exact h x hx
          · split at hx
            · exact h x hx
            · split at hx
              · split at hx
                · exact h x hx
                · split at hx
                  · exact h x hx
                  · rcases List.mem_append.1 hx with hx | hx
                    · exact h x hx
                    · simp at hx; subst hx; exact ha p hp
              · split at hx
                · exact h x hx
                · split at hx
                  · exact h x hx
                  · rcases List.mem_append.1 hx with hx | hx
                    · exact hsetx k _ (by exact ha p hp) x hx
                    · simp at hx; subst hx; simp [slotSize]
    have hdel : ∀ w st k, ∀ x ∈ (specSeqDel c.conf w st m k).1, slotSize x ≤ 2 ^ 23 := by
      intro w st k x hx
      unfold specSeqDel at hx
      split at hx
      · exact h x hx
      · split at hx
        · exact h x hx
        · split at hx
          · exact h x hx
          · split at hx
            · exact h x hx
            · split at hx
              · exact h x hx
              · exact hsetx k none (by simp [slotSize]) x hx
    by_cases hw : d.writes = true
    · cases d <;> simp [DsCmd.writes] at hw
      · simp only [specSeqEvent, specSeqCmd]
        split
        · exact hset _ _ _ _ _ (by simp)
        · split
          · exact hset _ _ _ _ _ (by simp)
          · exact h
        · exact h
      · simp only [specSeqEvent, specSeqCmd]
        split
        · split
          · exact h
          · exact hdel _ _ _
        · split
          · exact hdel _ _ _
          · exact h
        · exact h
    · simp only [specSeqEvent]
      rw [specSeqCmd_fst_of_not_writes c m d argv (by simpa using hw)]
      exact h
  | foreign => exact h
  | reload => exact h

theorem specSeqRun_len {es : List NsEvent} : ∀ {m : Slots}, (∀ e ∈ es, EvOK e) →
    (∀ x ∈ m, slotSize x ≤ 2 ^ 23) → ∀ x ∈ specSeqRun m es, slotSize x ≤ 2 ^ 23 := by
  induction es with
  | nil => intro m _ h; exact h
  | cons e es ih =>
    intro m he h
    exact ih (fun e' h' => he e' (List.mem_cons_of_mem _ h')) (specSeqEvent_len (he e (List.mem_cons_self ..)) h)

end Zdb
