/-
Facts about the specification of sequential namespaces.
-/
import Verif.Lemmas.UserSpec
import Verif.Lemmas.SeqInv
import Verif.Spec.SeqTrace
namespace Zdb

theorem Slots.get_eq (m : Slots) {k : Bytes} (hk : k.length = 8) : m.get k = m[fromLE k]?.join := by
  simp [Slots.get, seqPos, hk]

theorem Slots.get_short (m : Slots) {k : Bytes} (hk : k.length ≠ 8) : m.get k = none := by
  simp [Slots.get, seqPos, hk]

theorem fromLE_inj8 {a b : Bytes} (ha : a.length = 8) (hb : b.length = 8) (h : fromLE a = fromLE b) : a = b := by
  rw [← toLE_fromLE a, ← toLE_fromLE b, ha, hb, h]

theorem Slots.some_lt {m : Slots} {k : Bytes} {v : Val} (h : m.get k = some v) :
    k.length = 8 ∧ fromLE k < m.length := by
  by_cases hk : k.length = 8
  · refine ⟨hk, ?_⟩
    rw [Slots.get_eq m hk] at h
    cases hm : m[fromLE k]? with
    | none => rw [hm] at h; cases h
    | some x => exact (List.getElem?_eq_some_iff.1 hm).1
  · rw [Slots.get_short m hk] at h; cases h

theorem Slots.get_push (m : Slots) (p : Bytes) (t : Nat) (k : Bytes) (hm : m.length < 2 ^ 64) :
    (m.push p t).get k = if k = toLE 8 m.length then some ⟨p, t, []⟩ else m.get k := by
  by_cases hk : k.length = 8
  · rw [Slots.get_eq _ hk, Slots.get_eq _ hk]
    unfold Slots.push
    have he : k = toLE 8 m.length ↔ fromLE k = m.length := by
      constructor
      · rintro rfl; exact fromLE_toLE8 hm
      · intro h; rw [← h, ← hk, toLE_fromLE]
    by_cases hf : fromLE k = m.length
    · rw [if_pos (he.2 hf), hf]; simp
    · rw [if_neg (fun h => hf (he.1 h))]
      by_cases hl : fromLE k < m.length
      · rw [List.getElem?_append_left hl]
      · rw [List.getElem?_eq_none (by simp; omega), List.getElem?_eq_none (by omega)]
  · rw [Slots.get_short _ hk, Slots.get_short _ hk, if_neg]
    rintro rfl; exact hk (toLE_length _ _)

theorem Slots.get_set (m : Slots) {k : Bytes} {v : Val} (hv : m.get k = some v) (x : Option Val) (k' : Bytes) :
    Slots.get (m.set (fromLE k) x) k' = if k = k' then x else m.get k' := by
  obtain ⟨hk, hlt⟩ := Slots.some_lt hv
  by_cases hk' : k'.length = 8
  · rw [Slots.get_eq _ hk', Slots.get_eq _ hk', List.getElem?_set]
    by_cases he : k = k'
    · subst he; simp [hlt]
    · rw [if_neg (fun h => he (fromLE_inj8 hk hk' h)), if_neg he]
  · rw [Slots.get_short _ hk', Slots.get_short _ hk', if_neg]
    rintro rfl; exact hk' hk

theorem Slots.get_snoc_none (m : Slots) (k : Bytes) : Slots.get (m ++ [none]) k = m.get k := by
  by_cases hk : k.length = 8
  · rw [Slots.get_eq _ hk, Slots.get_eq _ hk]
    by_cases hl : fromLE k < m.length
    · rw [List.getElem?_append_left hl]
    · rw [List.getElem?_eq_none (l := m) (by omega)]
      by_cases hl2 : fromLE k = m.length
      · rw [hl2]; simp
      · rw [List.getElem?_eq_none (by simp; omega)]
  · rw [Slots.get_short _ hk, Slots.get_short _ hk]

/-- What SET does to the slots, by reply. -/
theorem specSeqSet_cases (conf : NsConf) (w st : Bool) (m : Slots) (k p : Bytes) (t : Nat) :
    ((∀ id, (specSeqSet conf w st m k p t).2 ≠ .bulk id) ∧ (specSeqSet conf w st m k p t).1 = m) ∨
    (m.get k = none ∧ k = [] ∧ (specSeqSet conf w st m k p t) = (m.push p t, .bulk (toLE 8 m.length)) ∧
      ¬ (conf.maxsize ≠ 0 ∧ m.total - slotSize (m.get k) + p.length > conf.maxsize)) ∨
    (∃ v, m.get k = some v ∧ (specSeqSet conf w st m k p t) = (m.update k v p t, .bulk k) ∧
      ¬ (conf.maxsize ≠ 0 ∧ m.total - slotSize (m.get k) + p.length > conf.maxsize)) := by
  unfold specSeqSet
  split
  · left; exact ⟨by simp, rfl⟩
  · split
    · left; exact ⟨by simp, rfl⟩
    · split
      · left; exact ⟨by simp, rfl⟩
      · split
        · left; exact ⟨by simp, rfl⟩
        · rename_i hq
          split
          · rename_i hg
            split
            · left; exact ⟨by simp, rfl⟩
            · rename_i hk
              split
              · left; exact ⟨by simp, rfl⟩
              · right; left; exact ⟨hg, by simpa using hk, rfl, by rw [hg]; rw [hg] at hq; exact hq⟩
          · rename_i v hg
            split
            · left; exact ⟨by simp, rfl⟩
            · split
              · left; exact ⟨by simp, rfl⟩
              · right; right; exact ⟨v, hg, rfl, by rw [hg] at hq; rw [hg]; exact hq⟩

theorem specSeqDel_cases (conf : NsConf) (w st : Bool) (m : Slots) (k : Bytes) :
    ((∀ x, (specSeqDel conf w st m k).2 ≠ .simple x) ∧ (specSeqDel conf w st m k).1 = m) ∨
    (∃ v, m.get k = some v ∧ specSeqDel conf w st m k = (m.del k, .ok)) := by
  unfold specSeqDel
  split
  · left; exact ⟨by simp, rfl⟩
  · split
    · left; exact ⟨by simp, rfl⟩
    · split
      · left; exact ⟨by simp, rfl⟩
      · rename_i hn
        split
        · left; exact ⟨by simp, rfl⟩
        · split
          · left; exact ⟨by simp, rfl⟩
          · right
            cases hg : m.get k with
            | none => rw [hg] at hn; simp at hn
            | some v => exact ⟨v, rfl, rfl⟩

theorem specSeqCmd_fst_of_not_writes (c : Ctx) (m : Slots) (d : DsCmd) (argv : List Bytes)
    (h : d.writes = false) : (specSeqCmd c m d argv).1 = m := by
  cases d <;> simp [DsCmd.writes] at h <;> simp only [specSeqCmd] <;> (try rfl) <;> split <;> rfl

theorem specSeqCmd_snd (c : Ctx) (m : Slots) (d : DsCmd) (argv : List Bytes) :
    (specSeqCmd c m d argv).2.isSome = d.determined := by
  cases d <;> simp only [specSeqCmd, DsCmd.determined]
  all_goals first
    | rfl
    | (repeat' split) <;> rfl

/-- What an event does to the slots, with its reply: nothing, an insertion, an update or a deletion. -/
def SlotEffect (m m' : Slots) (e : NsEvent) (r : Reply) : Prop :=
    (m' = m ∧ (∀ k, seqWriteOf k (e, r) = none) ∧ insertedId (e, r) = none ∧ ackedSets [(e, r)] = 0) ∨
    (∃ p t, m' = m.push p t ∧
      (∀ k, seqWriteOf k (e, r) = if toLE 8 m.length = k then some (some p) else none) ∧
      insertedId (e, r) = some (toLE 8 m.length) ∧ ackedSets [(e, r)] = 1 ∧
      ∃ c argv, e = .cmd c .set argv ∧ ¬ (c.conf.maxsize ≠ 0 ∧ m.total + p.length > c.conf.maxsize)) ∨
    (∃ k v p t, m.get k = some v ∧ m' = m.update k v p t ∧
      (∀ k', seqWriteOf k' (e, r) = if k = k' then some (some p) else none) ∧ insertedId (e, r) = none ∧
      ackedSets [(e, r)] = 1 ∧ ∃ c argv, e = .cmd c .set argv ∧
        ¬ (c.conf.maxsize ≠ 0 ∧ m.total - v.payload.length + p.length > c.conf.maxsize)) ∨
    (∃ k v, m.get k = some v ∧ m' = m.del k ∧
      (∀ k', seqWriteOf k' (e, r) = if k = k' then some none else none) ∧ insertedId (e, r) = none ∧
      ackedSets [(e, r)] = 0)

theorem slotEffect_set (c : Ctx) (st : Bool) (m : Slots) (n k p : Bytes) (rest : List Bytes) (t : Nat) :
    SlotEffect m (specSeqSet c.conf c.writable st m k p t).1 (.cmd c .set (n :: k :: p :: rest))
      (specSeqSet c.conf c.writable st m k p t).2 := by
  rcases specSeqSet_cases c.conf c.writable st m k p t with ⟨h3, h4⟩ | ⟨h3, h4, h5, h6⟩ | ⟨v, h3, h4, h6⟩
  · left
    rw [h4]
    generalize (specSeqSet c.conf c.writable st m k p t).2 = r at h3
    cases r with
    | bulk id => exact absurd rfl (h3 id)
    | _ => exact ⟨rfl, fun _ => rfl, by cases k <;> rfl, rfl⟩
  · right; left
    rw [h5]
    refine ⟨p, t, rfl, fun _ => rfl, by rw [h4]; rfl, rfl, c, _, rfl, ?_⟩
    rw [h3] at h6; exact h6
  · right; right; left
    rw [h4]
    refine ⟨k, v, p, t, h3, rfl, fun _ => rfl, ?_, rfl, c, _, rfl, ?_⟩
    · cases k with
      | nil => have := (Slots.some_lt h3).1; simp at this
      | cons => rfl
    · rw [h3] at h6; exact h6

theorem slotEffect_del (c : Ctx) (st : Bool) (m : Slots) (n k : Bytes) (rest : List Bytes) :
    SlotEffect m (specSeqDel c.conf c.writable st m k).1 (.cmd c .del (n :: k :: rest))
      (specSeqDel c.conf c.writable st m k).2 := by
  rcases specSeqDel_cases c.conf c.writable st m k with ⟨h3, h4⟩ | ⟨v, h3, h4⟩
  · left
    rw [h4]
    generalize (specSeqDel c.conf c.writable st m k).2 = r at h3
    cases r with
    | simple x => exact absurd rfl (h3 x)
    | _ => exact ⟨rfl, fun _ => rfl, rfl, rfl⟩
  · right; right; right
    rw [h4]
    exact ⟨k, v, h3, rfl, fun _ => rfl, rfl, rfl⟩

theorem slotEffect_none (m : Slots) (c : Ctx) (d : DsCmd) (argv : List Bytes) (x : String) :
    SlotEffect m m (.cmd c d argv) (.err x) := by
  refine Or.inl ⟨rfl, ?_, ?_, ?_⟩
  · intro k; unfold seqWriteOf; split <;> simp_all
  · unfold insertedId; split <;> simp_all
  · cases d <;> rfl

theorem specSeqEvent_cases (m : Slots) (e : NsEvent) (r : Reply)
    (hr : ∀ r', (specSeqEvent m e).2 = some r' → r = r') : SlotEffect m (specSeqEvent m e).1 e r := by
  cases e with
  | foreign => exact Or.inl ⟨rfl, fun _ => rfl, rfl, rfl⟩
  | reload => exact Or.inl ⟨rfl, fun _ => rfl, rfl, rfl⟩
  | cmd c d argv =>
    simp only [specSeqEvent] at hr ⊢
    by_cases hw : d.writes = true
    · have hsome := specSeqCmd_snd c m d argv
      cases hx : specSeqCmd c m d argv with
      | mk m' o =>
      rw [hx] at hr hsome
      have key : ∀ r', specSeqCmd c m d argv = (m', some r') → SlotEffect m m' (.cmd c d argv) r' := by
        clear hr hsome hx
        intro r' hx
        cases d <;> simp [DsCmd.writes] at hw
        · simp only [specSeqCmd] at hx
          split at hx
          all_goals (try (split at hx))
          all_goals (simp only [Prod.mk.injEq, Option.some.injEq] at hx; obtain ⟨rfl, rfl⟩ := hx)
          all_goals first
            | exact slotEffect_none ..
            | exact slotEffect_set ..
        · simp only [specSeqCmd] at hx
          split at hx
          all_goals (try (split at hx))
          all_goals (simp only [Prod.mk.injEq, Option.some.injEq] at hx; obtain ⟨rfl, rfl⟩ := hx)
          all_goals first
            | exact slotEffect_none ..
            | exact slotEffect_del ..
      cases o with
      | none =>
        cases d <;> simp [DsCmd.writes] at hw <;> simp [DsCmd.determined] at hsome
      | some r' =>
        have := hr r' rfl
        subst this
        exact key _ hx
    · have hw' : d.writes = false := by simpa using hw
      refine Or.inl ⟨specSeqCmd_fst_of_not_writes c m d argv hw', ?_, ?_, ?_⟩
      · intro k; cases d <;> simp [DsCmd.writes] at hw' <;> rfl
      · cases d <;> simp [DsCmd.writes] at hw' <;> rfl
      · cases d <;> simp [DsCmd.writes] at hw' <;> rfl

theorem specSeqEvent_get (m : Slots) (e : NsEvent) (r : Reply) (k : Bytes) (hm : m.length < 2 ^ 64)
    (hr : ∀ r', (specSeqEvent m e).2 = some r' → r = r') :
    ((specSeqEvent m e).1.get k).map (·.payload) =
      (seqWriteOf k (e, r)).getD ((m.get k).map (·.payload)) := by
  rcases specSeqEvent_cases m e r hr with ⟨h1, h2, -⟩ | ⟨p, t, h1, h2, -⟩ | ⟨k', v, p, t, h0, h1, h2, -⟩ |
    ⟨k', v, h0, h1, h2, -⟩
  · rw [h1, h2]; rfl
  · rw [h1, h2, Slots.get_push _ _ _ _ hm]
    by_cases hk : k = toLE 8 m.length
    · rw [if_pos hk, if_pos hk.symm]; rfl
    · rw [if_neg hk, if_neg (Ne.symm hk)]; rfl
  · rw [h1, h2, Slots.update, Slots.get_snoc_none, Slots.get_set m h0]
    split <;> rfl
  · rw [h1, h2, Slots.del, Slots.get_set m h0]
    split <;> rfl

theorem specSeqEvent_length (m : Slots) (e : NsEvent) (r : Reply)
    (hr : ∀ r', (specSeqEvent m e).2 = some r' → r = r') :
    (specSeqEvent m e).1.length = m.length + ackedSets [(e, r)] := by
  rcases specSeqEvent_cases m e r hr with ⟨h1, -, -, h2⟩ | ⟨p, t, h1, -, -, h2, -⟩ |
    ⟨k', v, p, t, h0, h1, -, -, h2, -⟩ | ⟨k', v, h0, h1, -, -, h2⟩
  · rw [h1, h2]; rfl
  · rw [h1, h2]; simp [Slots.push]
  · rw [h1, h2]; simp [Slots.update]
  · rw [h1, h2]; simp [Slots.del]

theorem ackedSets_cons (x : NsEvent × Reply) (tr : List (NsEvent × Reply)) :
    ackedSets (x :: tr) = ackedSets [x] + ackedSets tr := by
  unfold ackedSets
  rw [List.filter_cons]
  split <;> simp_all [Nat.add_comm]

theorem ackedSets_le (tr : List (NsEvent × Reply)) : ackedSets tr ≤ tr.length := List.length_filter_le _ _

theorem specSeqRun_length (m : Slots) (tr : List (NsEvent × Reply)) (h : SeqAgrees m tr) :
    (specSeqRun m (tr.map (·.1))).length = m.length + ackedSets tr := by
  induction tr generalizing m with
  | nil => rfl
  | cons x tr ih =>
    obtain ⟨e, r⟩ := x
    simp only [List.map_cons, specSeqRun]
    rw [ih _ h.2, specSeqEvent_length m e r h.1, ackedSets_cons (e, r) tr]
    omega

theorem seqAgrees_get (m : Slots) (tr : List (NsEvent × Reply)) (h : SeqAgrees m tr) (k : Bytes)
    (hm : m.length + tr.length < 2 ^ 64) :
    ((specSeqRun m (tr.map (·.1))).get k).map (·.payload) =
      tr.foldl (fun a x => (seqWriteOf k x).getD a) ((m.get k).map (·.payload)) := by
  induction tr generalizing m with
  | nil => rfl
  | cons x tr ih =>
    obtain ⟨e, r⟩ := x
    simp only [List.length_cons] at hm
    have hl := specSeqEvent_length m e r h.1
    have hle := ackedSets_le [(e, r)]
    simp only [List.length_cons, List.length_nil] at hle
    simp only [List.map_cons, specSeqRun, List.foldl_cons]
    rw [ih _ h.2 (by omega), specSeqEvent_get m e r k (by omega) h.1]

theorem specSeqRun_snoc (m : Slots) (es : List NsEvent) (e : NsEvent) :
    specSeqRun m (es ++ [e]) = (specSeqEvent (specSeqRun m es) e).1 := by
  induction es generalizing m with
  | nil => rfl
  | cons a es ih => exact ih _

theorem seqAgrees_append (m : Slots) (a b : List (NsEvent × Reply)) :
    SeqAgrees m (a ++ b) ↔ SeqAgrees m a ∧ SeqAgrees (specSeqRun m (a.map (·.1))) b := by
  induction a generalizing m with
  | nil => simp [SeqAgrees, specSeqRun]
  | cons x a ih =>
    obtain ⟨e, r⟩ := x
    simp only [List.cons_append, SeqAgrees, List.map_cons, specSeqRun, ih, and_assoc]

/-- The ids given out are the numbers of SETs acknowledged before. -/
theorem seqAgrees_ids (m : Slots) (tr : List (NsEvent × Reply)) (h : SeqAgrees m tr)
    (hm : m.length + tr.length < 2 ^ 64) :
    (tr.filterMap insertedId).Pairwise (fun a b => fromLE a < fromLE b) ∧
      ∀ id ∈ tr.filterMap insertedId, id.length = 8 ∧ m.length ≤ fromLE id := by
  induction tr generalizing m with
  | nil => simp
  | cons x tr ih =>
    obtain ⟨e, r⟩ := x
    simp only [List.length_cons] at hm
    have hl := specSeqEvent_length m e r h.1
    have hle := ackedSets_le [(e, r)]
    simp only [List.length_cons, List.length_nil] at hle
    obtain ⟨i1, i2⟩ := ih _ h.2 (by omega)
    have hmono : ∀ id ∈ tr.filterMap insertedId, id.length = 8 ∧ m.length ≤ fromLE id := by
      intro id hid; have := i2 id hid; exact ⟨this.1, by omega⟩
    rcases specSeqEvent_cases m e r h.1 with ⟨-, -, h3, -⟩ | ⟨p, t, -, -, h3, h4, -⟩ |
      ⟨k', v, p, t, -, -, -, h3, -⟩ | ⟨k', v, -, -, -, h3, -⟩
    · rw [List.filterMap_cons_none h3]; exact ⟨i1, hmono⟩
    · rw [List.filterMap_cons_some h3]
      have hn : fromLE (toLE 8 m.length) = m.length := fromLE_toLE8 (by omega)
      refine ⟨List.pairwise_cons.2 ⟨?_, i1⟩, ?_⟩
      · intro b hb; rw [hn]; have := (i2 b hb).2; omega
      · intro id hid
        rcases List.mem_cons.1 hid with rfl | hid
        · exact ⟨toLE_length _ _, by rw [hn]; exact Nat.le_refl _⟩
        · exact hmono id hid
    · rw [List.filterMap_cons_none h3]; exact ⟨i1, hmono⟩
    · rw [List.filterMap_cons_none h3]; exact ⟨i1, hmono⟩

/-- Replies of some commands on the slots. -/
def specSeqReplies (m : Slots) : List (Ctx × DsCmd × List Bytes) → List ((Ctx × DsCmd × List Bytes) × Reply)
  | [] => []
  | (c, d, argv) :: l =>
    let x := specSeqCmd c m d argv
    match x.2 with
    | some r => ((c, d, argv), r) :: specSeqReplies x.1 l
    | none => specSeqReplies x.1 l

theorem seqVisible_eq (m : Slots) (tr : List (NsEvent × Reply)) (h : SeqAgrees m tr) :
    visible tr = specSeqReplies m (cmdsOf tr) := by
  induction tr generalizing m with
  | nil => rfl
  | cons x tr ih =>
    obtain ⟨e, r⟩ := x
    have hi := ih _ h.2
    cases e with
    | foreign => simpa [visible, cmdsOf, specSeqEvent] using hi
    | reload => simpa [visible, cmdsOf, specSeqEvent] using hi
    | cmd c d argv =>
      have hs := specSeqCmd_snd c m d argv
      have h1 := h.1
      simp only [specSeqEvent] at h1 hi
      simp only [cmdsOf, visible, List.filterMap_cons] at hi ⊢
      simp only [specSeqReplies]
      cases hx : (specSeqCmd c m d argv).2 with
      | none =>
        rw [hx] at hs
        simp only [Option.isSome_none] at hs
        simp only [← hs]
        exact hi
      | some r' =>
        rw [hx] at hs
        simp only [Option.isSome_some] at hs
        have := h1 r' hx
        simp only [← hs, if_true, this]
        rw [hi]

theorem specSeqReplies_filter (m : Slots) (l : List (Ctx × DsCmd × List Bytes)) (q : DsCmd → Bool)
    (hq : ∀ d, q d = false → d.writes = false) :
    specSeqReplies m (l.filter (fun x => q x.2.1)) = (specSeqReplies m l).filter (fun x => q x.1.2.1) := by
  induction l generalizing m with
  | nil => rfl
  | cons x l ih =>
    obtain ⟨c, d, argv⟩ := x
    by_cases hd : q d = true
    · rw [List.filter_cons_of_pos (by exact hd)]
      simp only [specSeqReplies]
      cases hx : (specSeqCmd c m d argv).2 with
      | none => simp only [ih]
      | some r => simp only [ih]; rw [List.filter_cons_of_pos (by exact hd)]
    · have hd' : q d = false := by simpa using hd
      rw [List.filter_cons_of_neg (by simp [hd'])]
      simp only [specSeqReplies]
      rw [specSeqCmd_fst_of_not_writes c m d argv (hq d hd')]
      cases hx : (specSeqCmd c m d argv).2 with
      | none => simp only [ih]
      | some r => simp only [ih]; rw [List.filter_cons_of_neg (by simp [hd'])]

/-! ### quota -/

theorem Slots.total_set (m : Slots) {k : Bytes} {v : Val} (hv : m.get k = some v) (x : Option Val) :
    Slots.total (m.set (fromLE k) x) + v.payload.length = m.total + slotSize x := by
  obtain ⟨hk, hlt⟩ := Slots.some_lt hv
  rw [Slots.get_eq m hk, List.getElem?_eq_getElem hlt] at hv
  simp only [Option.join_some] at hv
  unfold Slots.total
  generalize fromLE k = i at hlt hv
  induction m generalizing i with
  | nil => simp at hlt
  | cons a m ih =>
    cases i with
    | zero =>
      simp only [List.getElem_cons_zero] at hv
      subst hv
      simp [slotSize]; omega
    | succ i =>
      simp only [List.getElem_cons_succ, List.length_cons, Nat.add_lt_add_iff_right] at hv hlt
      have := ih i hlt hv
      simp only [List.set_cons_succ, List.map_cons, List.sum_cons]; omega

theorem specSeqRun_quota (q : Nat) (hq : q ≠ 0) (m : Slots) (tr : List (NsEvent × Reply)) (h : SeqAgrees m tr)
    (hm : m.total ≤ q) (hall : ∀ x ∈ tr, ∀ c d argv, x.1 = .cmd c d argv → c.conf.maxsize = q) :
    (specSeqRun m (tr.map (·.1))).total ≤ q := by
  induction tr generalizing m with
  | nil => exact hm
  | cons x tr ih =>
    obtain ⟨e, r⟩ := x
    refine ih _ h.2 ?_ (fun x hx => hall x (List.mem_cons_of_mem _ hx))
    rcases specSeqEvent_cases m e r h.1 with ⟨h1, -⟩ | ⟨p, t, h1, -, -, -, c, argv, rfl, h5⟩ |
      ⟨k, v, p, t, h0, h1, -, -, -, c, argv, rfl, h5⟩ | ⟨k, v, h0, h1, -⟩
    · rw [h1]; exact hm
    · have hc := hall _ (List.mem_cons_self ..) _ _ _ rfl
      rw [h1, Slots.push]
      rw [hc] at h5
      simp [Slots.total, slotSize] at h5 ⊢
      omega
    · have hc := hall _ (List.mem_cons_self ..) _ _ _ rfl
      rw [hc] at h5
      have := Slots.total_set m h0 (some ⟨p, t, ⟨v.payload, v.time⟩ :: v.older⟩)
      rw [h1, Slots.update]
      have e1 : Slots.total (m.set (fromLE k) (some ⟨p, t, ⟨v.payload, v.time⟩ :: v.older⟩) ++ [none]) =
          Slots.total (m.set (fromLE k) (some ⟨p, t, ⟨v.payload, v.time⟩ :: v.older⟩)) := by
        simp [Slots.total, slotSize]
      rw [e1]
      simp only [slotSize] at this
      omega
    · have := Slots.total_set m h0 none
      rw [h1, Slots.del]
      simp only [slotSize] at this
      omega

end Zdb
