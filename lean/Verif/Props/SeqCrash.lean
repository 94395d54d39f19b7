/-
The process dies during a command (sequential mode): C35, C36, C50.
-/
import Verif.Lemmas.SeqCrash
import Verif.Props.Crash
import Verif.Props.Seq
namespace Zdb

theorem readsKey_cases {d : DsCmd} (hd : d.readsKey = true) :
    d = .get ∨ d = .exists ∨ d = .check ∨ d = .length ∨ d = .keytime := by
  cases d <;> simp [DsCmd.readsKey] at hd ⊢

/-- A key near the store is near any log with the same slots, or more. -/
theorem nearKey_of {s : Store} {G G1 : Log} (h : SInv s G) (hl : (absSlots G).length ≤ (absSlots G1).length)
    {c : Ctx} {d : DsCmd} (hd : d.readsKey = true) {name k : Bytes}
    (hn : NearStore s (.cmd c d [name, k])) : Near G k ∧ Near G1 k := by
  have h0 := nearStore h hn
  have : NearKey (absSlots G) k := by
    rcases readsKey_cases hd with rfl | rfl | rfl | rfl | rfl <;> exact h0 k rfl
  refine ⟨near_iff.1 this, near_iff.1 ?_⟩
  intro h8
  rcases this h8 with h1 | h1
  · exact Or.inl (by omega)
  · exact Or.inr h1

/-- Reads only depend on the value of the id. -/
theorem seqRead_congr {c : Ctx} {br br1 : Branches} {s s1 : Store} {G G1 : Log} (h : SInv s G)
    (h1 : SReads s1 G1) (hl : (absSlots G).length ≤ (absSlots G1).length) (d : DsCmd)
    (hd : d.readsKey = true) (name k : Bytes) (hn : name ≠ []) (hnear : NearStore s (.cmd c d [name, k]))
    (hk : (absSlots G1).get k = (absSlots G).get k) :
    (dsCommand c br1 s1 d [name, k]).2.2 = (dsCommand c br s d [name, k]).2.2 := by
  obtain ⟨n1, n2⟩ := nearKey_of h hl hd hnear
  rw [h1.read d (readsKey_cases hd) name k hn n2, h.reads.read d (readsKey_cases hd) name k hn n1,
    specSeqRead, specSeqRead, hk]

/-- GET of an id whose value is known. -/
theorem seqGet_reply {c : Ctx} {br : Branches} {s : Store} {G : Log} (h : SReads s G) (name k : Bytes)
    (hn : name ≠ []) (hk : Near G k) (h8 : k.length = 8) (hf : c.conf.lock ≠ .frozen) :
    cmdGet c br s [name, k] = getReply (((absSlots G).get k).map (·.payload)) := by
  have := h.read (c := c) (br := br) .get (Or.inl rfl) name k hn hk
  simp only [dsCommand] at this
  have hk0 : k ≠ [] := fun e => by rw [e] at h8; simp at h8
  rw [this, specSeqRead, if_neg hk0, if_neg (by omega), if_neg hf]
  cases (absSlots G).get k <;> rfl

/-- C35, sequential mode, as far as it is true.  In every reachable state (which may itself have seen the
    process die before), if the process dies at any point of a SET that does not leave part of an index record
    behind, the next start succeeds.  Call `r` the reply the SET would have had.  Every id other than the one
    in `r` answers GET, EXISTS, LENGTH, CHECK and KEYTIME as before (all ids, if `r` gives none); the id in
    `r` answers GET as before, or with the new payload: an overwritten value is not lost, unlike in
    user-key mode.  Missing: the conditions of `DiedSeqOK`, and index records written in part
    (`C35_seq_refuted`). -/
theorem C35_seq_partial {cfg : Option Mode} {u : Nat} {tr : List (LifeEv × Reply)} {br br0 : Branches}
    {s : Store} (h : SeqLifeRun cfg u tr br s) (hlen : tr.length < maxEvents) (c : Ctx)
    (n k v : Bytes) (rest : List Bytes) (p : Death) (hok : DiedSeqOK c br s .set (n :: k :: v :: rest) p) :
    ∃ br1 s1, loadNs cfg br0 u (deathFiles c br s .set (n :: k :: v :: rest) p).1
        (deathFiles c br s .set (n :: k :: v :: rest) p).2 = .ok br1 s1 ∧
      (∀ (c' : Ctx) (d : DsCmd) (name k' : Bytes), d.readsKey = true → name ≠ [] →
        NearStore s (.cmd c' d [name, k']) → (dsCommand c br s .set (n :: k :: v :: rest)).2.2 ≠ .bulk k' →
        (dsCommand c' br1 s1 d [name, k']).2.2 = (dsCommand c' br s d [name, k']).2.2) ∧
      (∀ (c' : Ctx) (name k' : Bytes), name ≠ [] → NearStore s (.cmd c' .get [name, k']) →
        (dsCommand c br s .set (n :: k :: v :: rest)).2.2 = .bulk k' →
        cmdGet c' br1 s1 [name, k'] = cmdGet c' br s [name, k'] ∨
        cmdGet c' br1 s1 [name, k'] = .bulk v) := by
  obtain ⟨G, i1, -, -, i4⟩ := h.inv
  have hroom := h.room hlen
  obtain ⟨G1, j1, j2⟩ := i1.died hok hroom
  have hlen1 : G1.length < 2 ^ 32 := by
    have := j1.len
    have := (deathFiles_grows c br s .set (n :: k :: v :: rest) p (2 ^ 23) hok.args.size).1
    have := hroom.1
    omega
  obtain ⟨s1, k1, k2, -⟩ := j1.load br0 u cfg h.hcfg hlen1
  have hm : (absSlots G).length < 2 ^ 64 := by
    have := i4.len.2
    unfold maxEvents at hlen
    simp only [List.length_nil] at this
    omega
  have hctx : CtxOK c := ⟨by rw [hok.io], by rw [hok.io], by rw [hok.io], hok.limit, hok.quota⟩
  obtain ⟨G2, -, -, -, x4⟩ := i1.command (br := br) hctx .set _ hok.args hroom (nearStore i1 hok.near) hok.clean
  refine ⟨br0, s1, k1, ?_, ?_⟩
  · intro c' d name k' hd hn hnear hr
    refine seqRead_congr i1 k2 j2.len.1 d hd name k' hn hnear ?_
    rcases j2 with j2 | ⟨-, j2⟩ | ⟨-, j2⟩ | ⟨j2, -⟩
    · rw [j2]
    · rw [j2, Slots.get_snoc_none]
    · rw [j2]
      rcases specSeqCmd_set c (absSlots G) (n :: k :: v :: rest) with ⟨y, -⟩ | ⟨n', k0, v', rest', t, ha, y⟩
      · rw [y]
      · have := x4 _ (by rw [y])
        rw [y]
        exact specSeqSet_other _ _ _ _ _ _ _ _ hm (by rw [← this]; exact hr)
    · cases j2
  · intro c' name k' hn hnear hr
    have hsame : (absSlots G1).get k' = (absSlots G).get k' →
        cmdGet c' br0 s1 [name, k'] = cmdGet c' br s [name, k'] :=
      fun e => seqRead_congr i1 k2 j2.len.1 .get rfl name k' hn hnear e
    have hlen2 := j2.len.1
    rcases j2 with j3 | ⟨-, j3⟩ | ⟨-, j3⟩ | ⟨j3, -⟩
    · left; exact hsame (by rw [j3])
    · left; exact hsame (by rw [j3, Slots.get_snoc_none])
    · rcases specSeqCmd_set c (absSlots G) (n :: k :: v :: rest) with ⟨y, -⟩ | ⟨n', k0, v', rest', t, ha, y⟩
      · left; exact hsame (by rw [j3, y])
      · have hr' := x4 _ (by rw [y])
        rw [hr] at hr'
        obtain ⟨w, w1, w2, w3⟩ := specSeqSet_same _ _ _ _ _ _ _ _ hm hr'.symm
        simp only [List.cons.injEq] at ha
        obtain ⟨-, -, rfl, -⟩ := ha
        obtain ⟨n1, n2⟩ := nearKey_of i1 hlen2 (d := .get) rfl hnear
        have hgl : (absSlots G1).get k' = some w := by rw [j3, y]; exact w1
        by_cases hf : c'.conf.lock = .frozen
        · left
          have hk0 : k' ≠ [] := fun e => by rw [e] at w3; simp at w3
          have e1 := k2.read (c := c') (br := br0) .get (Or.inl rfl) name k' hn n2
          have e2 := i1.reads.read (c := c') (br := br) .get (Or.inl rfl) name k' hn n1
          simp only [dsCommand] at e1 e2
          rw [e1, e2]
          simp only [specSeqRead, if_neg hk0, hf, if_true]
        · right
          rw [seqGet_reply k2 name k' hn n2 w3 hf, hgl]
          simp only [Option.map_some, w2, getReply]
    · cases j3

/-- C36, sequential mode: if the process dies at any point of a DEL, the next start succeeds, every other id
    answers as before, and the id is there with its payload or gone. -/
theorem C36_seq {cfg : Option Mode} {u : Nat} {tr : List (LifeEv × Reply)} {br br0 : Branches} {s : Store}
    (h : SeqLifeRun cfg u tr br s) (hlen : tr.length < maxEvents) (c : Ctx) (n k : Bytes) (p : Death)
    (hnear : NearStore s (.cmd c .del [n, k])) :
    ∃ br1 s1, loadNs cfg br0 u (deathFiles c br s .del [n, k] p).1
        (deathFiles c br s .del [n, k] p).2 = .ok br1 s1 ∧
      (∀ (c' : Ctx) (d : DsCmd) (name k' : Bytes), d.readsKey = true → name ≠ [] →
        NearStore s (.cmd c' d [name, k']) → k' ≠ k →
        (dsCommand c' br1 s1 d [name, k']).2.2 = (dsCommand c' br s d [name, k']).2.2) ∧
      ((∀ (c' : Ctx) (d : DsCmd) (name : Bytes), d.readsKey = true → name ≠ [] →
          (dsCommand c' br1 s1 d [name, k]).2.2 = (dsCommand c' br s d [name, k]).2.2) ∨
       (∀ (c' : Ctx) (name : Bytes), name ≠ [] → c'.conf.lock ≠ .frozen →
          cmdGet c' br1 s1 [name, k] = .nil)) := by
  obtain ⟨G, i1, i2, -, -⟩ := h.inv
  have hcut : ∃ G', SRecov (deathFiles c br s .del [n, k] p).1 (deathFiles c br s .del [n, k] p).2 G' ∧
      (absSlots G' = absSlots G ∨ ((absSlots G).get k ≠ none ∧ absSlots G' = (absSlots G).del k)) := by
    have same : ∃ G', SRecov s.ifiles s.dfiles G' ∧
        (absSlots G' = absSlots G ∨ ((absSlots G).get k ≠ none ∧ absSlots G' = (absSlots G).del k)) :=
      ⟨G, i1.recov, Or.inl rfl⟩
    have key : ∀ io, ∃ G', SRecov (dsCommand { c with io := io } br s .del [n, k]).2.1.ifiles
        (dsCommand { c with io := io } br s .del [n, k]).2.1.dfiles G' ∧
        (absSlots G' = absSlots G ∨ ((absSlots G).get k ≠ none ∧ absSlots G' = (absSlots G).del k)) := by
      intro io
      simp only [dsCommand, cmdDel]
      split
      · exact same
      · exact seqDel_left i1 [n, k] k (near_iff.1 (nearStore i1 hnear k rfl)) io
    have hj : ((dsCommand c br s .del [n, k]).2.1.indexid != s.indexid) = false := by
      rw [del_indexid]; simp
    cases p with
    | start => exact same
    | jumpIndex m => simp only [deathFiles, hj]; exact same
    | jumpData m => simp only [deathFiles, hj]; exact same
    | _ => exact key _
  obtain ⟨G1, j1, j2⟩ := hcut
  have hlen1 : G1.length < 2 ^ 32 := by
    have := j1.len
    have := (deathFiles_grows c br s .del [n, k] p ((n.length + k.length)) (by
      intro b hb
      simp only [List.mem_cons, List.not_mem_nil, or_false] at hb
      rcases hb with rfl | rfl <;> omega)).1
    unfold maxEvents at hlen
    omega
  obtain ⟨s1, k1, k2, -⟩ := j1.load br0 u cfg h.hcfg hlen1
  have hl : (absSlots G).length ≤ (absSlots G1).length := by
    rcases j2 with j2 | ⟨-, j2⟩ <;> rw [j2] <;> simp [Slots.del]
  refine ⟨br0, s1, k1, ?_, ?_⟩
  · intro c' d name k' hd hn hnear' hk
    refine seqRead_congr i1 k2 hl d hd name k' hn hnear' ?_
    rcases j2 with j2 | ⟨j3, j2⟩
    · rw [j2]
    · rw [j2, Slots.get_del _ _ _ j3, if_neg (Ne.symm hk)]
  · have hnk : ∀ (c' : Ctx) (d : DsCmd) (name : Bytes), d.readsKey = true → NearStore s (.cmd c' d [name, k]) := by
      intro c' d name hd
      rcases readsKey_cases hd with rfl | rfl | rfl | rfl | rfl <;> exact hnear
    rcases j2 with j2 | ⟨j3, j2⟩
    · left
      intro c' d name hd hn
      exact seqRead_congr i1 k2 hl d hd name k hn (hnk c' d name hd) (by rw [j2])
    · right
      intro c' name hn hf
      have h8 : k.length = 8 := by
        cases hg : (absSlots G).get k with
        | none => exact absurd hg j3
        | some v => exact (Slots.some_lt hg).1
      rw [seqGet_reply k2 name k hn (nearKey_of i1 hl (d := .get) rfl (hnk c' .get name rfl)).2 h8 hf, j2,
        Slots.get_del _ _ _ j3, if_pos rfl]
      rfl

/-! ### acknowledged writes -/

theorem slotsStep_spares {m m' : Slots} {x : LifeEv × Reply} (h : SlotsStep m x m') {k : Bytes}
    (hs : x.1.spares k) (hm : m.length < 2 ^ 64) (hlt : fromLE k < m.length) : m'.get k = m.get k := by
  obtain ⟨e, r⟩ := x
  have key : ∀ c d argv, SLeft c m d argv m' →
      (d = .set ∨ d = .del → ∀ n k' rest, argv = n :: k' :: rest → k' ≠ k) → m'.get k = m.get k := by
    intro c d argv hl hs
    refine hl.spares hm hlt ?_
    intro hd ha
    match argv, ha, hs hd with
    | n :: k' :: rest, ha, hs =>
      simp only [List.getElem?_cons_succ, List.getElem?_cons_zero, Option.some.injEq] at ha
      exact hs n k' rest rfl ha
  cases e with
  | ev e =>
    obtain ⟨rfl, -⟩ := h
    cases e with
    | cmd c d argv =>
      refine key c d argv (specSeqCmd_left c m d argv) ?_
      rintro (rfl | rfl) <;> exact hs
    | foreign => rfl
    | reload => rfl
  | died c d argv p =>
    refine key c d argv h ?_
    rintro (rfl | rfl) <;> exact hs

theorem slotsRun_spares {m m' : Slots} {tr : List (LifeEv × Reply)} (h : SlotsRun m tr m') {k : Bytes}
    (hs : ∀ x ∈ tr, x.1.spares k) (hm : m.length + tr.length < 2 ^ 64) (hlt : fromLE k < m.length) :
    m'.get k = m.get k := by
  induction h with
  | nil => rfl
  | cons h1 _ ih =>
    simp only [List.length_cons] at hm
    have hl := h1.len
    rw [ih (fun y hy => hs y (List.mem_cons_of_mem _ hy)) (by omega) (by omega)]
    exact slotsStep_spares h1 (hs _ (List.mem_cons_self ..)) (by omega) hlt

/-- An acknowledged write leaves its id with the value it says. -/
theorem slotsStep_acked {m m' : Slots} {e : NsEvent} {r : Reply} (h : SlotsStep m (.ev e, r) m') {k : Bytes}
    {w : Option Bytes} (hw : seqWriteOf k (e, r) = some w) (hm : m.length < 2 ^ 64) :
    (m'.get k).map (·.payload) = w ∧ k.length = 8 ∧ fromLE k < m'.length := by
  obtain ⟨rfl, hr⟩ := h
  refine ⟨by rw [specSeqEvent_get m e r k hm hr, hw]; rfl, ?_⟩
  rcases specSeqEvent_cases m e r hr with ⟨-, h2, -⟩ | ⟨p, t, h1, h2, -⟩ | ⟨k', v, p, t, h0, h1, h2, -⟩ |
    ⟨k', v, h0, h1, h2, -⟩
  · rw [h2] at hw; cases hw
  · rw [h2] at hw
    split at hw
    · rename_i hk
      subst hk
      rw [h1, fromLE_toLE8 hm]
      simp [Slots.push]
    · cases hw
  · rw [h2] at hw
    split at hw
    · rename_i hk
      subst hk
      obtain ⟨a, b⟩ := Slots.some_lt h0
      rw [h1]
      exact ⟨a, by simp [Slots.update]; omega⟩
    · cases hw
  · rw [h2] at hw
    split at hw
    · rename_i hk
      subst hk
      obtain ⟨a, b⟩ := Slots.some_lt h0
      rw [h1]
      exact ⟨a, by simp [Slots.del]; omega⟩
    · cases hw

/-- C50, sequential mode: after a SET acknowledged with id `k`, or an acknowledged DEL of `k`, whatever happens
    except SET and DEL naming `k` — other writes, restarts, the process dying during other commands any number
    of times —, GET `k` answers the value of the SET, or nothing after the DEL.  Missing (hence partial): the
    conditions of `SeqLifeRun`, in particular index records written in part (`C35_seq_refuted`). -/
theorem C50_seq_partial {cfg : Option Mode} {u : Nat} {tr tr' : List (LifeEv × Reply)} {br : Branches}
    {s : Store} {e : NsEvent} {r : Reply} {k : Bytes} {w : Option Bytes}
    (h : SeqLifeRun cfg u (tr ++ (.ev e, r) :: tr') br s) (hw : seqWriteOf k (e, r) = some w)
    (hs : ∀ x ∈ tr', x.1.spares k) (c : Ctx) (name : Bytes) (hn : name ≠ []) (hf : c.conf.lock ≠ .frozen) :
    cmdGet c br s [name, k] = getReply w := by
  obtain ⟨G, i1, -, -, i4⟩ := h.inv
  have hlen := h.len
  unfold maxEvents at hlen
  simp only [List.length_append, List.length_cons] at hlen
  obtain ⟨m1, j1, j2⟩ := i4.split
  cases j2 with
  | @cons _ m2 _ _ _ j2 j3 =>
    have l1 := j1.len.2
    have l2 := j2.len
    simp only [List.length_nil] at l1
    obtain ⟨a1, a2, a3⟩ := slotsStep_acked j2 hw (by omega)
    have hg := slotsRun_spares j3 hs (by omega) a3
    have hnear : Near G k := near_iff.1 (fun _ => Or.inl (by have := j3.len.1; omega))
    rw [seqGet_reply i1.reads name k hn hnear a2 hf, hg, a1]

/-! ### examples, and what goes wrong -/

/-- Two values. -/
def exTwoSeq : List (Ctx × DsCmd × List Bytes) :=
  [(exCtx, .set, [str "SET", [], str "old!"]), (exCtx, .set, [str "SET", [], str "other"])]

def exTwoSeqStore : Store := (runCmds (fun _ => []) (freshStore .seq) exTwoSeq).2.1

/-- Overwriting id 0. -/
def exOverSeq : List Bytes := [str "SET", sid 0, str "replacement"]

/-- The state after the start following the death of the process at `p` while it overwrites id 0. -/
def exAfterSeq (c : Ctx) (p : Death) : LoadRes :=
  loadNs (some .seq) (fun _ => []) 7 (deathFiles c (fun _ => []) exTwoSeqStore .set exOverSeq p).1
    (deathFiles c (fun _ => []) exTwoSeqStore .set exOverSeq p).2

/-- What a result of loading answers to GET `k`. -/
def LoadRes.getK (k : Bytes) : LoadRes → Option Reply
  | .ok br s => some (cmdGet exCtx br s [str "GET", k])
  | _ => none

set_option maxRecDepth 100000 in
/-- A run meeting the hypotheses of `C35_seq_partial`: two values, then the process dies after the copy was
    appended and before id 0 was overwritten. -/
theorem exSeqLife : ∃ br s, SeqLifeRun (some .seq) 7
    [(.ev (.cmd exCtx .set [str "SET", [], str "old!"]), .bulk (sid 0)),
     (.ev (.cmd exCtx .set [str "SET", [], str "other"]), .bulk (sid 1)),
     (.died exCtx .set exOverSeq (.itemOver 0), .nil)] br s := by
  have ok : ∀ argv, ArgsOK argv → EvOK (.cmd exCtx .set argv) := fun argv h => ⟨exCtx_ok, h⟩
  refine ⟨_, _, ⟨fun _ => [], freshStore .seq, Or.inl ⟨rfl, fun _ => [], freshNs_eq (some .seq) _ 7⟩,
    .ev (ok _ ⟨⟨_, _, rfl, by decide⟩, by decide⟩) (nearEvent_of (by decide +kernel))
      (.cmd exCtx .set _ rfl rfl (Or.inl rfl) (.nil _ _))
    (.ev (ok _ ⟨⟨_, _, rfl, by decide⟩, by decide⟩) (nearEvent_of (by decide +kernel))
      (.cmd exCtx .set _ rfl rfl (Or.inl rfl) (.nil _ _))
    (.died exCtx .set exOverSeq (.itemOver 0) (br0 := fun _ => []) rfl
      ⟨by decide, by decide, ⟨⟨_, _, rfl, by decide⟩, by decide⟩, Or.inl rfl, rfl, Or.inl rfl,
        nearEvent_of (by decide +kernel)⟩ rfl (Or.inl rfl) (.nil _ _)))⟩, by decide⟩

set_option maxRecDepth 100000 in
/-- The values around the overwriting of id 0: the old one until the item is overwritten. -/
example : (exAfterSeq exCtx (.dataPay 2)).getK (sid 0) = some (.bulk (str "old!")) ∧
    (exAfterSeq exCtx (.itemApp 0)).getK (sid 0) = some (.bulk (str "old!")) ∧
    (exAfterSeq exCtx (.itemApp 42)).getK (sid 0) = some (.bulk (str "old!")) ∧
    (exAfterSeq exCtx (.itemOver 42)).getK (sid 0) = some (.bulk (str "replacement")) ∧
    (exAfterSeq exCtx (.itemOver 0)).getK (sid 1) = some (.bulk (str "other")) := ⟨rfl, rfl, rfl, rfl, rfl⟩

set_option maxRecDepth 100000 in
/-- C35 is false in sequential mode if part of an item is overwritten: the item then mixes the position of the
    new record with the length of the old one, and GET answers a payload that was never written. -/
theorem C35_seq_refuted :
    cmdGet exCtx (fun _ => []) exTwoSeqStore [str "GET", sid 0] = .bulk (str "old!") ∧
    (exAfterSeq exCtx (.itemOver 5)).getK (sid 0) = some (.bulk (str "repl")) := ⟨rfl, rfl⟩

end Zdb
