/-
C48: a data file of more than 4 GiB.

SET begins a new data file when the current one would pass the limit; DEL does not, and adds a record of 18 bytes and the
key to the current data file.
-/
import Verif.Props.Check
import Verif.Lemmas.Rebuild
namespace Zdb

/-- A DEL of an existing key adds 18 bytes and the key to the current data file, whatever its size. -/
theorem del_grows {br : Branches} {s : Store} {G : Log} (h : UInv br exCtx.u s G) {k : Bytes} (hk0 : k ≠ []) (hk : k.length ≤ 255)
    (hg : ((absKV G).get k).isSome = true) :
    (dsCommand exCtx br s .del [str "DEL", k]).2.1.dataid = s.dataid ∧
    fileLen (dsCommand exCtx br s .del [str "DEL", k]).2.1.dfiles s.dataid = fileLen s.dfiles s.dataid + (18 + k.length) ∧
    ∃ G', UInv (dsCommand exCtx br s .del [str "DEL", k]).1 exCtx.u (dsCommand exCtx br s .del [str "DEL", k]).2.1 G' ∧
      absKV G' = (absKV G).del k := by
  have hx : dsCommand exCtx br s .del [str "DEL", k] = cmdDel.body exCtx br s [str "DEL", k] k := by
    show cmdDel exCtx br s [str "DEL", k] = _
    have hv : argsValidate [str "DEL", k] 2 = none := by
      unfold argsValidate
      cases k with
      | nil => exact absurd rfl hk0
      | cons a k => rfl
    unfold cmdDel
    simp only [hv]
  rw [hx]
  obtain ⟨G', i1, i2, -⟩ := cmdDel_body_spec (c := exCtx) h rfl [str "DEL", k] k
  have i3 : absKV G' = (absKV G).del k := by
    have := congrArg Prod.fst i2
    simp only at this
    rw [this]
    unfold specDel
    rw [if_neg (by omega)]
    cases hg' : (absKV G).get k with
    | none => rw [hg'] at hg; cases hg
    | some v => rfl
  rw [absKV_get] at hg
  cases hl : liveGet G k with
  | none => rw [hl] at hg; cases hg
  | some l =>
    have hid : (l.entry exCtx.u).id = k := (liveGet_some hl).2
    have hdi := dataInsert_good (s := s) (io := exCtx.io) rfl rfl ⟨(l.entry exCtx.u).id, [], s.dprev % 2 ^ 32, true, timestampFromSet exCtx.now [str "DEL", k] 2⟩ rfl
    simp only [if_true] at hdi
    obtain ⟨f, hf⟩ := h.dataFile
    have key : (cmdDel.body exCtx br s [str "DEL", k] k).2.1.dataid = s.dataid ∧
      fileLen (cmdDel.body exCtx br s [str "DEL", k] k).2.1.dfiles s.dataid = fileLen s.dfiles s.dataid + (18 + k.length) := by
      have h0 : fileLen s.dfiles s.dataid ≠ 0 := by
        obtain ⟨g, hg⟩ : ∃ g, G[s.dataid]? = some g := by
          have : s.dataid < G.length := by rw [h.did]; have := h.iid; omega
          exact ⟨_, List.getElem?_eq_getElem this⟩
        have hbnd := h.bound _ _ _ hg hf
        rw [fileLen, hf]
        simp only
        omega
      unfold cmdDel.body
      rw [if_neg (by omega)]
      simp only [h.indexGet, hl, Option.map_some]
      rw [if_neg (by decide), if_neg (by decide), if_neg (by decide), if_neg (by decide), hdi]
      simp only [if_neg h0]
      generalize hst : ({ s with dfiles := appendFile s.dfiles s.dataid (DRec.enc ⟨(l.entry exCtx.u).id, [], s.dprev % 2 ^ 32, true, timestampFromSet exCtx.now [str "DEL", k] 2⟩), dprev := fileLen s.dfiles s.dataid } : Store) = t
      have hs := indexDelete_same br t exCtx.u exCtx.io (l.entry exCtx.u)
      have e1 : t.dataid = s.dataid := by rw [← hst]
      have e2 : fileLen t.dfiles s.dataid = fileLen s.dfiles s.dataid + (18 + k.length) := by
        rw [← hst]
        simp only [fileLen, appendFile, List.getElem?_modify_eq, hf, Option.map_some, Option.map_eq_map]
        rw [List.length_append, DRec.enc_length, hid]
        simp
      split
      · exact ⟨hs.did.trans e1, by rw [hs.df]; exact e2⟩
      · exact ⟨hs.did.trans e1, by rw [hs.df]; exact e2⟩
    exact ⟨key.1, key.2, G', i1, i3⟩

/-- The commands deleting the keys of a list. -/
def delAll (ks : List Bytes) : List (Ctx × DsCmd × List Bytes) := ks.map (fun k => (exCtx, .del, [str "DEL", k]))

/-- The commands storing one byte for each key of a list. -/
def setAll (ks : List Bytes) : List (Ctx × DsCmd × List Bytes) := ks.map (fun k => (exCtx, .set, [str "SET", k, [1]]))

/-- Deleting keys of 255 bytes. -/
theorem delAll_grows (ks : List Bytes) (hnd : ks.Nodup) (hlen : ∀ k ∈ ks, k.length = 255) {br : Branches} {s : Store} {G : Log}
    (h : UInv br exCtx.u s G) (hg : ∀ k ∈ ks, ((absKV G).get k).isSome = true) :
    (runCmds br s (delAll ks)).2.1.dataid = s.dataid ∧
    fileLen (runCmds br s (delAll ks)).2.1.dfiles s.dataid = fileLen s.dfiles s.dataid + 273 * ks.length := by
  induction ks generalizing br s G with
  | nil => exact ⟨rfl, rfl⟩
  | cons k ks ih =>
    have hk := hlen k (List.mem_cons_self ..)
    have hk0 : k ≠ [] := by intro e; rw [e] at hk; cases hk
    obtain ⟨d1, d2, G', d3, d4⟩ := del_grows h hk0 (by omega) (hg k (List.mem_cons_self ..))
    have hnd' := List.nodup_cons.1 hnd
    obtain ⟨j1, j2⟩ := ih hnd'.2 (fun x hx => hlen x (List.mem_cons_of_mem _ hx)) d3 (fun x hx => by
      rw [d4, KV.get_del, if_neg (fun e => hnd'.1 (by rw [e]; exact hx))]
      exact hg x (List.mem_cons_of_mem _ hx))
    simp only [delAll, List.map_cons, runCmds] at j1 j2 ⊢
    refine ⟨j1.trans d1, ?_⟩
    rw [d1] at j2
    rw [j2, d2, hk, List.length_cons]
    omega

theorem specEvent_set {m : KV} {k k' : Bytes} (hk0 : k ≠ []) (hk : k.length ≤ 255) :
    ((specEvent m (.cmd exCtx .set [str "SET", k, [1]])).1.get k').isSome = (decide (k = k') || (m.get k').isSome) := by
  have : (specEvent m (.cmd exCtx .set [str "SET", k, [1]])).1 =
      (specSet exConf true true m k [1] (1700000000 % 2 ^ 32)).1 := rfl
  rw [this]
  unfold specSet
  rw [if_neg (by omega)]
  have hw : writeRefusal exConf true = none := rfl
  simp only [hw]
  rw [if_neg (by simp [exConf]), if_neg (by simp [exConf]), if_neg hk0]
  by_cases he : k = k'
  · subst he
    by_cases hp : (m.get k).map (·.payload) = some [1]
    · rw [if_pos hp]
      cases hg : m.get k with
      | none => rw [hg] at hp; cases hp
      | some v => simp
    · rw [if_neg hp, if_neg (by decide), KV.get_put, if_pos rfl]
      simp
  · by_cases hp : (m.get k).map (·.payload) = some [1]
    · rw [if_pos hp]; simp [he]
    · rw [if_neg hp, if_neg (by decide), KV.get_put, if_neg he]
      simp [he]

theorem setAll_spec (ks : List Bytes) (hlen : ∀ k ∈ ks, k.length = 255) (m : KV) (br : Branches) (s : Store) {k : Bytes}
    (hk : k ∈ ks ∨ (m.get k).isSome = true) :
    ((specRun m ((traceOf br s (setAll ks)).map (·.1))).get k).isSome = true := by
  induction ks generalizing m br s with
  | nil =>
    rcases hk with hk | hk
    · cases hk
    · exact hk
  | cons x ks ih =>
    have hx := hlen x (List.mem_cons_self ..)
    have hx0 : x ≠ [] := by intro e; rw [e] at hx; cases hx
    simp only [setAll, List.map_cons, traceOf, specRun]
    refine ih (fun y hy => hlen y (List.mem_cons_of_mem _ hy)) _ _ _ ?_
    rw [specEvent_set hx0 (by omega)]
    rcases hk with hk | hk
    · rcases List.mem_cons.1 hk with rfl | hk
      · right; simp
      · exact Or.inl hk
    · right; simp [hk]

theorem runCmds_append (a b : List (Ctx × DsCmd × List Bytes)) (br : Branches) (s : Store) :
    (runCmds br s (a ++ b)).2.1 = (runCmds (runCmds br s a).1 (runCmds br s a).2.1 b).2.1 := by
  induction a generalizing br s with
  | nil => rfl
  | cons x a ih => obtain ⟨c, d, argv⟩ := x; simp only [List.cons_append, runCmds]; exact ih _ _

/-- `n` different keys of 255 bytes. -/
def bigKeys (n : Nat) : List Bytes := (List.range n).map (toLE 255)

theorem bigKeys_nodup {n : Nat} (hn : n ≤ 2 ^ 32) : (bigKeys n).Nodup := by
  unfold bigKeys
  rw [List.nodup_iff_pairwise_ne, List.pairwise_map]
  refine List.Pairwise.imp_of_mem ?_ (List.nodup_iff_pairwise_ne.1 List.nodup_range)
  intro a b ha hb hne he
  rw [List.mem_range] at ha hb
  have h : (2 : Nat) ^ 32 ≤ 256 ^ 255 := by decide +kernel
  exact hne (toLE_inj (by omega) (by omega) he)

theorem bigKeys_length {n : Nat} : (bigKeys n).length = n := by simp [bigKeys]

theorem bigKeys_len {n : Nat} : ∀ k ∈ bigKeys n, k.length = 255 := by
  intro k hk
  obtain ⟨i, -, rfl⟩ := List.mem_map.1 hk
  exact toLE_length _ _

/-- Storing `n` keys of 255 bytes and deleting them. -/
def bigCmds (n : Nat) : List (Ctx × DsCmd × List Bytes) := setAll (bigKeys n) ++ delAll (bigKeys n)

/-- The current data file has at least 273 bytes for each key. -/
theorem bigCmds_file {n : Nat} (hn : 2 * n ≤ maxEvents) :
    UserRun none 7 (traceOf (fun _ => []) (freshStore .user) (bigCmds n))
      (runCmds (fun _ => []) (freshStore .user) (bigCmds n)).1 (runCmds (fun _ => []) (freshStore .user) (bigCmds n)).2.1 ∧
    273 * n ≤ fileLen (runCmds (fun _ => []) (freshStore .user) (bigCmds n)).2.1.dfiles
      (runCmds (fun _ => []) (freshStore .user) (bigCmds n)).2.1.dataid := by
  have hn32 : n ≤ 2 ^ 32 := by unfold maxEvents at hn; omega
  have hargs : ∀ k ∈ bigKeys n, k.length ≤ 2 ^ 23 := fun k hk => by rw [bigKeys_len k hk]; decide
  have hset : ∀ x ∈ setAll (bigKeys n), okCmd x = true := by
    intro x hx
    obtain ⟨k, hk, rfl⟩ := List.mem_map.1 hx
    have := hargs k hk
    simp [okCmd, exCtx, exConf, Io.good, str, this]
  have hdel : ∀ x ∈ delAll (bigKeys n), okCmd x = true := by
    intro x hx
    obtain ⟨k, hk, rfl⟩ := List.mem_map.1 hx
    have := hargs k hk
    simp [okCmd, exCtx, exConf, Io.good, str, this]
  have hls : (setAll (bigKeys n)).length = n := by rw [setAll, List.length_map, bigKeys_length]
  have hld : (delAll (bigKeys n)).length = n := by rw [delAll, List.length_map, bigKeys_length]
  refine ⟨userRun_ok _ ?_ ?_, ?_⟩
  · rw [List.all_eq_true]
    intro x hx
    rcases List.mem_append.1 hx with hx | hx
    · exact hset x hx
    · exact hdel x hx
  · rw [bigCmds, List.length_append, hls, hld]; omega
  · have h1 := userRun_ok (setAll (bigKeys n)) (List.all_eq_true.2 hset) (by rw [hls]; omega)
    obtain ⟨G, i1, i2, -⟩ := h1.inv
    obtain ⟨j1, j2⟩ := delAll_grows (bigKeys n) (bigKeys_nodup hn32) bigKeys_len i1 (fun k hk => by
      rw [i2]; exact setAll_spec _ bigKeys_len _ _ _ (Or.inl hk))
    rw [bigKeys_length] at j2
    rw [bigCmds, runCmds_append, j1, j2]
    omega

theorem traceOf_events (l : List (Ctx × DsCmd × List Bytes)) (br : Branches) (s : Store) :
    (traceOf br s l).map (·.1) = l.map (fun x => .cmd x.1 x.2.1 x.2.2) := by
  induction l generalizing br s with
  | nil => rfl
  | cons x l ih => obtain ⟨c, d, argv⟩ := x; simp only [traceOf, List.map_cons, ih]

/-- C48 is false: after 16 million keys of 255 bytes were stored, with payloads of one byte, and deleted, with the default
    limit of 256 MiB, the current data file has more than 4 GiB. -/
theorem C48_refuted : exCtx.limit = 256 * 1024 * 1024 ∧ ∃ tr br s f, UserRun none 7 tr br s ∧
    tr.map (·.1) = (bigKeys 16000000).map (fun k => .cmd exCtx .set [str "SET", k, [1]]) ++
      (bigKeys 16000000).map (fun k => .cmd exCtx .del [str "DEL", k]) ∧
    s.dfiles[s.dataid]? = some f ∧ 2 ^ 32 < f.length := by
  refine ⟨rfl, ?_⟩
  obtain ⟨n, hn, hm⟩ : ∃ n, n = 16000000 ∧ 2 * n ≤ maxEvents := ⟨_, rfl, by unfold maxEvents; omega⟩
  obtain ⟨h1, h2⟩ := bigCmds_file hm
  rw [← hn]
  generalize hs : (runCmds (fun _ => []) (freshStore .user) (bigCmds n)).2.1 = s at h1 h2
  cases hf : s.dfiles[s.dataid]? with
  | none => rw [fileLen, hf] at h2; simp only at h2; omega
  | some f =>
    rw [fileLen, hf] at h2
    simp only at h2
    refine ⟨_, _, s, f, h1, ?_, hf, by omega⟩
    rw [traceOf_events, bigCmds, List.map_append, setAll, delAll, List.map_map, List.map_map]
    rfl

end Zdb
