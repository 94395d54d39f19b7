/-
Facts about the specification of user-key namespaces.
-/
import Verif.Spec.UserTrace
namespace Zdb

theorem KV.get_del (m : KV) (k k' : Bytes) :
    (m.del k).get k' = if k = k' then none else m.get k' := by
  unfold KV.get KV.del
  by_cases h : k = k'
  · subst h
    rw [if_pos rfl]
    simp
  · rw [if_neg h]
    congr 1
    induction m with
    | nil => rfl
    | cons x m ih =>
      by_cases hx : x.1 = k
      · have h2 : (x.1 == k') = false := by rw [hx]; simpa using h
        rw [List.filter_cons_of_neg (by simp [hx]), List.find?_cons, h2]; exact ih
      · rw [List.filter_cons_of_pos (by simp [hx]), List.find?_cons, List.find?_cons, ih]

theorem KV.get_put (m : KV) (k p : Bytes) (t : Nat) (k' : Bytes) :
    (m.put k p t).get k' = if k = k' then
      some { payload := p, time := t,
             older := match m.get k with
               | some v => ⟨v.payload, v.time⟩ :: v.older
               | none => [] } else m.get k' := by
  have hd := KV.get_del m k k'
  unfold KV.put KV.get
  rw [List.find?_append]
  unfold KV.get at hd
  by_cases h : k = k'
  · subst h
    rw [if_pos rfl] at hd
    rw [if_pos rfl]
    have : (m.del k).find? (fun x => x.1 == k) = none := by simpa using hd
    rw [this]
    simp
    rfl
  · rw [if_neg h] at hd
    rw [if_neg h]
    rw [← hd]
    have : (k == k') = false := by simpa using h
    cases (m.del k).find? (fun x => x.1 == k') <;> simp [this]

theorem specSet_get (conf : NsConf) (w st : Bool) (m : KV) (k p : Bytes) (t : Nat) (k' : Bytes) :
    (((specSet conf w st m k p t).1.get k').map (·.payload)) =
      match (specSet conf w st m k p t).2 with
      | .bulk _ => if k = k' then some p else (m.get k').map (·.payload)
      | _ => (m.get k').map (·.payload) := by
  unfold specSet
  split
  · rfl
  · split
    · rfl
    · split
      · rfl
      · split
        · rfl
        · split
          · rfl
          · split
            · rfl
            · split
              · rfl
              · simp only [KV.get_put]
                split <;> rfl

theorem specDel_get (conf : NsConf) (w st : Bool) (m : KV) (k : Bytes) (k' : Bytes) :
    (((specDel conf w st m k).1.get k').map (·.payload)) =
      match (specDel conf w st m k).2 with
      | .simple _ => if k = k' then none else (m.get k').map (·.payload)
      | _ => (m.get k').map (·.payload) := by
  unfold specDel
  split
  · rfl
  · split
    · rfl
    · split
      · rfl
      · split
        · rfl
        · split
          · rfl
          · simp only [KV.get_del, Reply.ok]
            split <;> rfl

theorem specCmd_fst_of_not_writes (c : Ctx) (m : KV) (d : DsCmd) (argv : List Bytes)
    (h : d.writes = false) : (specCmd c m d argv).1 = m := by
  cases d <;> simp [DsCmd.writes] at h <;> simp only [specCmd] <;> (try rfl) <;> split <;> rfl

theorem specCmd_snd (c : Ctx) (m : KV) (d : DsCmd) (argv : List Bytes) :
    (specCmd c m d argv).2.isSome = d.determined := by
  cases d <;> simp only [specCmd, DsCmd.determined]
  all_goals first
    | rfl
    | (repeat' split) <;> rfl

/-- One event changes the payload of `k` as its reply says. -/
theorem specEvent_get (m : KV) (e : NsEvent) (r : Reply) (k : Bytes)
    (hr : ∀ r', (specEvent m e).2 = some r' → r = r') :
    ((specEvent m e).1.get k).map (·.payload) =
      (writeOf k (e, r)).getD ((m.get k).map (·.payload)) := by
  cases e with
  | foreign => rfl
  | reload => rfl
  | cmd c d argv =>
    simp only [specEvent] at hr ⊢
    by_cases hw : d.writes = true
    · cases d <;> simp [DsCmd.writes] at hw
      · -- set
        have key : ∀ (k' p : Bytes) (t : Nat), r = (specSet c.conf c.writable (c.io.dhdr.ok && c.io.dpay.ok) m k' p t).2 →
            ((specSet c.conf c.writable (c.io.dhdr.ok && c.io.dpay.ok) m k' p t).1.get k).map (·.payload) =
            (match r with
              | .bulk _ => if k' = k then some (some p) else none
              | _ => none).getD ((m.get k).map Val.payload) := by
          intro k' p t hr'
          rw [specSet_get, ← hr']
          cases r <;> simp <;> split <;> rfl
        match argv with
        | [n, k', p] =>
          have h1 := hr _ rfl
          simp only [specCmd, key k' p _ h1]
          cases r <;> rfl
        | [n, k', p, t] =>
          by_cases had : c.admin = true
          · simp only [specCmd, had, if_true] at hr ⊢
            have h1 := hr _ rfl
            rw [key k' p _ h1]
            cases r <;> rfl
          · simp only [specCmd, had] at hr ⊢
            have h1 := hr _ rfl
            subst h1; rfl
        | [] => have h1 := hr _ rfl; subst h1; rfl
        | [_] => have h1 := hr _ rfl; subst h1; rfl
        | [_, _] => have h1 := hr _ rfl; subst h1; rfl
        | _ :: _ :: _ :: _ :: _ :: _ => have h1 := hr _ rfl; subst h1; rfl
      · -- del
        have key : ∀ (k' : Bytes), r = (specDel c.conf c.writable (c.io.dhdr.ok && c.io.dpay.ok) m k').2 →
            ((specDel c.conf c.writable (c.io.dhdr.ok && c.io.dpay.ok) m k').1.get k).map (·.payload) =
            (match r with
              | .simple _ => if k' = k then some none else none
              | _ => none).getD ((m.get k).map Val.payload) := by
          intro k' hr'
          rw [specDel_get, ← hr']
          cases r <;> simp <;> split <;> rfl
        match argv with
        | [n, k'] =>
          by_cases hk : k' = []
          · simp only [specCmd, if_pos hk] at hr ⊢
            have h1 := hr _ rfl
            subst h1; rfl
          · simp only [specCmd, if_neg hk] at hr ⊢
            have h1 := hr _ rfl
            rw [key k' h1]
            cases r <;> rfl
        | [n, k', t] =>
          by_cases had : c.admin = true
          · simp only [specCmd, had, if_true] at hr ⊢
            have h1 := hr _ rfl
            rw [key k' h1]
            cases r <;> rfl
          · simp only [specCmd, had] at hr ⊢
            have h1 := hr _ rfl
            subst h1; rfl
        | [] => have h1 := hr _ rfl; subst h1; rfl
        | [_] => have h1 := hr _ rfl; subst h1; rfl
        | _ :: _ :: _ :: _ :: _ => have h1 := hr _ rfl; subst h1; rfl
    · have hw' : d.writes = false := by simpa using hw
      rw [specCmd_fst_of_not_writes c m d argv hw']
      have : writeOf k (.cmd c d argv, r) = none := by
        cases d <;> simp [DsCmd.writes] at hw' <;> rfl
      rw [this]; rfl

theorem agrees_get (m : KV) (tr : List (NsEvent × Reply)) (h : Agrees m tr) (k : Bytes) :
    ((specRun m (tr.map (·.1))).get k).map (·.payload) =
      tr.foldl (fun a x => (writeOf k x).getD a) ((m.get k).map (·.payload)) := by
  induction tr generalizing m with
  | nil => rfl
  | cons x tr ih =>
    obtain ⟨e, r⟩ := x
    simp only [List.map_cons, specRun, List.foldl_cons]
    rw [ih _ h.2, specEvent_get m e r k h.1]

theorem agrees_append (m : KV) (a b : List (NsEvent × Reply)) :
    Agrees m (a ++ b) ↔ Agrees m a ∧ Agrees (specRun m (a.map (·.1))) b := by
  induction a generalizing m with
  | nil => simp [Agrees, specRun]
  | cons x a ih =>
    obtain ⟨e, r⟩ := x
    simp only [List.cons_append, Agrees, List.map_cons, specRun, ih, and_assoc]

/-- Replies of some commands on the map. -/
def specReplies (m : KV) : List (Ctx × DsCmd × List Bytes) → List ((Ctx × DsCmd × List Bytes) × Reply)
  | [] => []
  | (c, d, argv) :: l =>
    let x := specCmd c m d argv
    match x.2 with
    | some r => ((c, d, argv), r) :: specReplies x.1 l
    | none => specReplies x.1 l

/-- The replies of determined commands depend only on the sequence of commands. -/
theorem visible_eq (m : KV) (tr : List (NsEvent × Reply)) (h : Agrees m tr) :
    visible tr = specReplies m (cmdsOf tr) := by
  induction tr generalizing m with
  | nil => rfl
  | cons x tr ih =>
    obtain ⟨e, r⟩ := x
    have hi := ih _ h.2
    cases e with
    | foreign => simpa [visible, cmdsOf, specEvent] using hi
    | reload => simpa [visible, cmdsOf, specEvent] using hi
    | cmd c d argv =>
      have hs := specCmd_snd c m d argv
      have h1 := h.1
      simp only [specEvent] at h1 hi
      simp only [cmdsOf, visible, List.filterMap_cons] at hi ⊢
      simp only [specReplies]
      cases hx : (specCmd c m d argv).2 with
      | none =>
        rw [hx] at hs
        simp only [Option.isSome_none] at hs
        simp only [← hs]
        exact hi
      | some r' =>
        rw [hx] at hs
        simp only [Option.isSome_some] at hs
        have := h1 r' hx
        simp only [← hs, if_true, this]
        rw [hi]

/-- The map after some commands. -/
def specMap (m : KV) (l : List (Ctx × DsCmd × List Bytes)) : KV :=
  l.foldl (fun m x => (specCmd x.1 m x.2.1 x.2.2).1) m

theorem specRun_eq (m : KV) (tr : List (NsEvent × Reply)) :
    specRun m (tr.map (·.1)) = specMap m (cmdsOf tr) := by
  induction tr generalizing m with
  | nil => rfl
  | cons x tr ih =>
    obtain ⟨e, r⟩ := x
    simp only [List.map_cons, specRun]
    cases e with
    | foreign => simpa [cmdsOf, specEvent] using ih m
    | reload => simpa [cmdsOf, specEvent] using ih m
    | cmd c d argv =>
      rw [ih]
      simp [specEvent, cmdsOf, specMap]

theorem specMap_writesOf (m : KV) (l : List (Ctx × DsCmd × List Bytes)) :
    specMap m (writesOf l) = specMap m l := by
  induction l generalizing m with
  | nil => rfl
  | cons x l ih =>
    obtain ⟨c, d, argv⟩ := x
    by_cases hw : d.writes = true
    · have : writesOf ((c, d, argv) :: l) = (c, d, argv) :: writesOf l := by simp [writesOf, hw]
      rw [this]
      simp only [specMap, List.foldl_cons] at ih ⊢
      exact ih _
    · have hw' : d.writes = false := by simpa using hw
      have : writesOf ((c, d, argv) :: l) = writesOf l := by simp [writesOf, hw']
      rw [this, ih]
      simp only [specMap, List.foldl_cons]
      rw [specCmd_fst_of_not_writes c m d argv hw']

/-! ### distinct keys, totals -/

theorem KV.del_nodup {m : KV} (h : (m.map (·.1)).Nodup) (k : Bytes) : ((m.del k).map (·.1)).Nodup :=
  List.Nodup.sublist (List.Sublist.map _ List.filter_sublist) h

theorem KV.put_nodup {m : KV} (h : (m.map (·.1)).Nodup) (k p : Bytes) (t : Nat) :
    ((m.put k p t).map (·.1)).Nodup := by
  unfold KV.put
  rw [List.map_append, List.nodup_append]
  refine ⟨KV.del_nodup h k, by simp, ?_⟩
  intro a ha b hb
  simp only [List.map_cons, List.map_nil, List.mem_singleton] at hb
  subst hb
  obtain ⟨x, hx, rfl⟩ := List.mem_map.1 ha
  have := (List.mem_filter.1 hx).2
  simpa using this

theorem KV.mem_iff_get {m : KV} (h : (m.map (·.1)).Nodup) {k : Bytes} {v : Val} :
    (k, v) ∈ m ↔ m.get k = some v := by
  unfold KV.get
  rw [Option.map_eq_some_iff]
  constructor
  · intro hm
    induction m with
    | nil => simp at hm
    | cons x m ih =>
      simp only [List.map_cons, List.nodup_cons] at h
      rcases List.mem_cons.1 hm with rfl | hm
      · exact ⟨(k, v), by simp, rfl⟩
      · have : x.1 ≠ k := by
          intro he; exact h.1 (by rw [he]; exact List.mem_map.2 ⟨(k, v), hm, rfl⟩)
        obtain ⟨y, hy, he⟩ := ih h.2 hm
        exact ⟨y, by rw [List.find?_cons_of_neg (by simpa using this)]; exact hy, he⟩
  · rintro ⟨x, hx, rfl⟩
    have h1 := List.mem_of_find?_eq_some hx
    have h2 := List.find?_some hx
    simp only [beq_iff_eq] at h2
    rw [← h2]; exact h1

theorem KV.total_del (m : KV) (k : Bytes) (h : (m.map (·.1)).Nodup) :
    (m.del k).total = m.total - m.sizeOf k := by
  suffices hs : (m.del k).total + m.sizeOf k = m.total by omega
  induction m with
  | nil => rfl
  | cons x m ih =>
    simp only [List.map_cons, List.nodup_cons] at h
    by_cases hx : x.1 = k
    · have hd : KV.del m k = m := by
        unfold KV.del
        rw [List.filter_eq_self]
        intro y hy
        have : y.1 ≠ k := by
          intro he; exact h.1 (by rw [hx, ← he]; exact List.mem_map.2 ⟨y, hy, rfl⟩)
        simpa using this
      have h1 : KV.del (x :: m) k = m := by
        have : KV.del (x :: m) k = KV.del m k := by simp [KV.del, hx]
        rw [this, hd]
      have h2 : KV.sizeOf (x :: m) k = x.2.payload.length := by simp [KV.sizeOf, KV.get, hx]
      rw [h1, h2]
      simp only [KV.total, List.map_cons, List.sum_cons]; omega
    · have h1 : KV.del (x :: m) k = x :: KV.del m k := by simp [KV.del, hx]
      have h2 : KV.sizeOf (x :: m) k = KV.sizeOf m k := by simp [KV.sizeOf, KV.get, hx]
      rw [h1, h2]
      have := ih h.2
      simp only [KV.total, List.map_cons, List.sum_cons] at *; omega

theorem KV.total_put (m : KV) (k p : Bytes) (t : Nat) :
    (m.put k p t).total = (m.del k).total + p.length := by
  simp [KV.put, KV.total]

theorem specCmd_cases (c : Ctx) (m : KV) (d : DsCmd) (argv : List Bytes) :
    (specCmd c m d argv).1 = m ∨ (∃ k, (specCmd c m d argv).1 = m.del k) ∨
    ∃ k p t, (specCmd c m d argv).1 = m.put k p t ∧
      ¬ (c.conf.maxsize ≠ 0 ∧ m.total - m.sizeOf k + p.length > c.conf.maxsize) := by
  have hset : ∀ (w st : Bool) (k p : Bytes) (t : Nat), (specSet c.conf w st m k p t).1 = m ∨
      ((specSet c.conf w st m k p t).1 = m.put k p t ∧
        ¬ (c.conf.maxsize ≠ 0 ∧ m.total - m.sizeOf k + p.length > c.conf.maxsize)) := by
    intro w st k p t
    unfold specSet
    split
    · exact Or.inl rfl
    · split
      · exact Or.inl rfl
      · split
        · exact Or.inl rfl
        · split
          · exact Or.inl rfl
          · rename_i hq
            split
            · exact Or.inl rfl
            · split
              · exact Or.inl rfl
              · split
                · exact Or.inl rfl
                · exact Or.inr ⟨rfl, hq⟩
  have hdel : ∀ (w st : Bool) (k : Bytes), (specDel c.conf w st m k).1 = m ∨
      (specDel c.conf w st m k).1 = m.del k := by
    intro w st k
    unfold specDel
    split
    · exact Or.inl rfl
    · split
      · exact Or.inl rfl
      · split
        · exact Or.inl rfl
        · split
          · exact Or.inl rfl
          · split
            · exact Or.inl rfl
            · exact Or.inr rfl
  by_cases hw : d.writes = true
  · cases d <;> simp [DsCmd.writes] at hw
    · unfold specCmd
      simp only
      split
      · rename_i k p
        rcases hset c.writable (c.io.dhdr.ok && c.io.dpay.ok) k p (c.now % 2 ^ 32) with h | h
        · exact Or.inl h
        · exact Or.inr (Or.inr ⟨_, _, _, h⟩)
      · rename_i k p t
        split
        · rcases hset c.writable (c.io.dhdr.ok && c.io.dpay.ok) k p (atoll t % 2 ^ 32).toNat with h | h
          · exact Or.inl h
          · exact Or.inr (Or.inr ⟨_, _, _, h⟩)
        · exact Or.inl rfl
      · exact Or.inl rfl
    · unfold specCmd
      simp only
      split
      · rename_i k
        split
        · exact Or.inl rfl
        · rcases hdel c.writable (c.io.dhdr.ok && c.io.dpay.ok) k with h | h
          · exact Or.inl h
          · exact Or.inr (Or.inl ⟨_, h⟩)
      · rename_i k _
        split
        · rcases hdel c.writable (c.io.dhdr.ok && c.io.dpay.ok) k with h | h
          · exact Or.inl h
          · exact Or.inr (Or.inl ⟨_, h⟩)
        · exact Or.inl rfl
      · exact Or.inl rfl
  · exact Or.inl (specCmd_fst_of_not_writes c m d argv (by simpa using hw))

theorem specCmd_nodup (c : Ctx) (m : KV) (d : DsCmd) (argv : List Bytes) (h : (m.map (·.1)).Nodup) :
    ((specCmd c m d argv).1.map (·.1)).Nodup := by
  rcases specCmd_cases c m d argv with h1 | ⟨k, h1⟩ | ⟨k, p, t, h1, -⟩
  · rw [h1]; exact h
  · rw [h1]; exact KV.del_nodup h k
  · rw [h1]; exact KV.put_nodup h k p t

theorem specRun_nodup (m : KV) (es : List NsEvent) (h : (m.map (·.1)).Nodup) :
    ((specRun m es).map (·.1)).Nodup := by
  induction es generalizing m with
  | nil => exact h
  | cons e es ih =>
    refine ih _ ?_
    cases e with
    | cmd c d argv => exact specCmd_nodup c m d argv h
    | foreign => exact h
    | reload => exact h

theorem specRun_quota (q : Nat) (hq : q ≠ 0) (m : KV) (es : List NsEvent) (hn : (m.map (·.1)).Nodup)
    (hm : m.total ≤ q) (hall : ∀ e ∈ es, ∀ c d argv, e = .cmd c d argv → c.conf.maxsize = q) :
    (specRun m es).total ≤ q := by
  induction es generalizing m with
  | nil => exact hm
  | cons e es ih =>
    refine ih _ ?_ ?_ (fun x hx => hall x (List.mem_cons_of_mem _ hx))
    · cases e with
      | cmd c d argv => exact specCmd_nodup c m d argv hn
      | foreign => exact hn
      | reload => exact hn
    · cases e with
      | foreign => exact hm
      | reload => exact hm
      | cmd c d argv =>
        have hc := hall _ (List.mem_cons_self ..) c d argv rfl
        simp only [specEvent]
        rcases specCmd_cases c m d argv with h1 | ⟨k, h1⟩ | ⟨k, p, t, h1, h2⟩
        · rw [h1]; exact hm
        · rw [h1, KV.total_del m k hn]; omega
        · rw [h1, KV.total_put, KV.total_del m k hn]
          rw [hc] at h2
          omega

end Zdb
