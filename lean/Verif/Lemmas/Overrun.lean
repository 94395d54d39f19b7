/-
Lookups that stay within their buffers, and requests that do not crash.
-/
import Verif.Lemmas.SeqRun
import Verif.Lemmas.NodeLife
namespace Zdb

theorem SLook.noOverrun {s : Store} {G : Log} (h : SLook s G) (k : Bytes) (hn : Near G k) : seqOverrun s k = false := by
  unfold seqOverrun
  split
  · rename_i m hmode hmap
    by_cases hk : k.length = 8
    · rw [if_neg (by simpa using hk)]
      obtain ⟨m', j, g, h1, h2, h3, h4, h5, h6⟩ := h.searchLast (fromLE k)
      rw [hmap] at h1
      obtain rfl : m = m' := Option.some.inj h1
      have hlt := fromLE_lt8 hk
      simp only [h2]
      have hoffs : 29 + 42 * (fromLE k - startOf G j) < 2 ^ 32 := by
        rcases hn hk with hn | hn
        · rw [List.getElem?_eq_getElem hn] at h5
          have hm := List.getElem_mem hn
          cases hgi : g[fromLE k - startOf G j]? with
          | none => rw [hgi] at h5; simp at h5
          | some r =>
            rw [hgi, Option.map_some, Option.some.injEq] at h5
            have := h.offs _ hm
            rw [h5] at this
            exact this
        · omega
      rw [(seqOffset_small h4 hlt hoffs).1]
      unfold itemGetDisk
      obtain ⟨fs, hfs, hfs2⟩ := h.irep
      have hf : s.ifiles[j]? = some (encFile 1 j g) := hfs2 _ _ (by rw [hfs.get, h3]; rfl)
      have hg8 : ∀ r ∈ g, r.item.id.length = 8 := by
        intro r hr
        obtain ⟨l, hl, rfl⟩ := log_mem_locs h3 hr
        exact h.ids8 l hl
      cases hgi : g[fromLE k - startOf G j]? with
      | none =>
        have hle : g.length ≤ fromLE k - startOf G j := by simpa using hgi
        rw [hf]
        simp only
        rw [readExact_past (by rw [encFile_length, isize_eight hg8]; omega) (by simp [itemHdr])]
        simp
      | some r =>
        have hmem : (⟨j, 29 + 42 * (fromLE k - startOf G j), r⟩ : Loc) ∈ locs G := by
          rw [hgi, Option.map_some] at h5
          exact List.mem_of_getElem? h5
        obtain ⟨pre, post, hf0, hpre⟩ := hfs.at hmem
        have hf1 := hfs2 _ _ hf0
        have hf2 := readExact_at (f := pre ++ (encItem r.item ++ post)) (off := 29 + 42 * (fromLE k - startOf G j))
          (len := itemHdr + r.item.id.length) rfl hpre.symm (by simp [itemHdr])
        simp only at hf1 hf2
        have h8 := h.ids8 _ hmem
        simp only [Loc.id] at h8
        rw [h8] at hf2
        have hwf := h.wf _ hmem
        simp only at hwf
        simp only [hf1, hf2, Option.map_some, decItem_encItem _ hwf]
        rw [hwf.1, h8]
        rfl
    · rw [if_pos (by simpa using hk)]
  · rfl

theorem seqOverrun_user {s : Store} (h : s.mode = .user) (k : Bytes) : seqOverrun s k = false := by
  unfold seqOverrun
  rw [h]

/-- Commands that look up keys and nothing else: HISTORY, SCAN and RSCAN also follow positions. -/
def DsCmd.byKey : DsCmd → Bool
  | .set | .del | .get | .mget | .exists | .check | .length | .keytime | .keycur => true
  | _ => false

/-- The arguments of such a command that are keys. -/
def keysOf : DsCmd → List Bytes → List Bytes
  | .mget, argv => argv.tail
  | _, argv => argv.tail.take 1

theorem key8_short {k : Bytes} (h : ¬ k.length > 255) : key8 k = k := by
  unfold key8
  rw [Nat.mod_eq_of_lt (by omega), List.take_length]

theorem lookedUp_keys {c : Ctx} {d : DsCmd} {argv : List Bytes} (hd : d.byKey = true) {k : Bytes} (h : k ∈ lookedUp c d argv) :
    ∃ k' ∈ keysOf d argv, k = key8 k' := by
  cases d <;> simp only [DsCmd.byKey, Bool.false_eq_true] at hd <;> simp only [lookedUp] at h
  case mget =>
    split at h
    · rename_i ks
      split at h
      · simp at h
      · rename_i hc
        refine ⟨k, by simpa [keysOf] using h, (key8_short fun hk => hc (Or.inl ?_)).symm⟩
        exact List.any_eq_true.2 ⟨k, h, by simpa using hk⟩
    · simp at h
  all_goals
    repeat' split at h
  all_goals
    first
    | exact absurd h List.not_mem_nil
    | (rw [List.mem_singleton] at h
       first
       | exact ⟨_, List.mem_singleton.2 rfl, h⟩
       | exact ⟨_, List.mem_singleton.2 rfl, h.trans (key8_short (by omega)).symm⟩)

theorem argsValidate_no_crash {argv : List Bytes} {n : Nat} {r : Reply} (h : argsValidate argv n = some r) : r ≠ .crash := by
  unfold argsValidate at h
  split at h
  · injection h with h; subst h; simp [errArgs]
  · split at h
    · injection h with h; subst h; simp [errArg]
    · cases h

theorem readChecks_no_crash {c : Ctx} {argv : List Bytes} {f : Bytes → Reply} (h : ∀ k, f k ≠ .crash) :
    readChecks c argv f ≠ .crash := by
  unfold readChecks
  split
  · exact argsValidate_no_crash (by assumption)
  · repeat' split
    all_goals first
      | exact h _
      | simp [errArgs, errFrozen]

theorem getSingle_no_crash (c : Ctx) (br : Branches) (s : Store) (k : Bytes) : getSingle c br s k ≠ .crash := by
  unfold getSingle
  split
  · simp
  · split <;> simp

theorem setHandlerUser_no_crash (c : Ctx) (br : Branches) (s : Store) (id p : Bytes) (ts : Nat) (ex : Option Entry) :
    (setHandlerUser c br s id p ts ex).2.2 ≠ .crash := by
  unfold setHandlerUser
  split
  · simp
  · split
    · simp
    · dsimp only
      split
      · simp
      · cases ex <;> dsimp only <;> split <;> simp

theorem setHandlerSeq_no_crash (c : Ctx) (br : Branches) (s : Store) (id p : Bytes) (ts : Nat) (ex : Option Entry) :
    (setHandlerSeq c br s id p ts ex).2.2 ≠ .crash := by
  unfold setHandlerSeq
  split
  · simp
  · dsimp only
    split
    · simp
    · split
      · simp
      · cases ex <;> dsimp only <;> split <;> simp

theorem setBody_no_crash (c : Ctx) (br : Branches) (s : Store) (argv : List Bytes) (k p : Bytes) :
    (cmdSet.body c br s argv k p).2.2 ≠ .crash := by
  unfold cmdSet.body
  split
  · simp
  split
  · simp [errReadOnly]
  split
  · simp [errFrozen]
  split
  · simp [errLocked]
  dsimp only
  generalize (if k.length ≠ 0 then indexGet br s c.u k else none) = en
  split
  · simp
  · split
    · simp
    · split
      · exact setHandlerUser_no_crash _ _ _ _ _ _ _
      · exact setHandlerSeq_no_crash _ _ _ _ _ _ _

theorem delBody_no_crash (c : Ctx) (br : Branches) (s : Store) (argv : List Bytes) (k : Bytes) :
    (cmdDel.body c br s argv k).2.2 ≠ .crash := by
  unfold cmdDel.body
  split
  · simp
  split
  · simp [errReadOnly]
  split
  · simp [errFrozen]
  split
  · simp [errLocked]
  split
  · simp
  split
  · simp
  dsimp only
  split
  · simp
  · split <;> simp [Reply.ok]

theorem byKey_no_crash {c : Ctx} {br : Branches} {s : Store} {d : DsCmd} {argv : List Bytes} (hd : d.byKey = true) :
    (dsCommand c br s d argv).2.2 ≠ .crash := by
  cases d <;> simp only [DsCmd.byKey, Bool.false_eq_true] at hd <;> simp only [dsCommand]
  case set =>
    unfold cmdSet
    split
    · exact setBody_no_crash _ _ _ _ _ _
    · split
      · exact setBody_no_crash _ _ _ _ _ _
      · simp [errDenied]
    · simp [errArgs]
  case del =>
    unfold cmdDel
    split
    · split
      · exact delBody_no_crash _ _ _ _ _
      · simp [errDenied]
    · split
      · exact argsValidate_no_crash (by assumption)
      · split
        · exact delBody_no_crash _ _ _ _ _
        · simp [errArgs]
  case get => exact readChecks_no_crash (getSingle_no_crash c br s)
  case mget =>
    unfold cmdMget
    repeat' split
    all_goals simp [errFrozen]
  case keycur =>
    unfold cmdKeycur
    split
    · exact argsValidate_no_crash (by assumption)
    · repeat' split
      all_goals simp [errFrozen, errArgs]
  all_goals
    refine readChecks_no_crash (fun k => ?_)
    split <;> simp

/-- A request that runs a command by key on keys whose lookups stay within the buffers does not crash. -/
theorem request_no_crash {S : Settings} {n : Node} {fd : Nat} {e : Env} {argv : List Bytes} {p : Picked}
    (hp : pick n fd e argv = some p) {d : DsCmd} (hd : p.h = .ds d) (hb : d.byKey = true)
    (ho : ∀ k ∈ keysOf d p.argv, seqOverrun p.r.store (key8 k) = false) : request S n fd e argv ≠ .crash := by
  unfold pick at hp
  split at hp
  · cases hp
  · rename_i c hc
    split at hp
    · rename_i e' key rest u hpo hns
      split at hp
      · rename_i i r hl hr
        obtain ⟨hh, hhi, rfl⟩ := Option.map_eq_some_iff.1 hp
        dsimp only at hd ho
        unfold request
        rw [hc]
        dsimp only
        split
        · simp
        · rw [hpo]
          dsimp only
          have hdis : dispatch S e' n c (key :: rest) = cmdDs S e' n { c with executed := some i } r d (key :: rest) := by
            unfold dispatch
            rw [hns]
            dsimp only
            rw [hl]
            dsimp only
            rw [hr, hhi]
            dsimp only
            rw [hd]
            rfl
          rw [hdis]
          unfold cmdDs
          rw [if_neg]
          · have hnc := byKey_no_crash (c := ctxOf S e' { c with executed := some i } r) (br := n.br) (s := r.store) (argv := key :: rest) hb
            generalize dsCommand (ctxOf S e' { c with executed := some i } r) n.br r.store d (key :: rest) = x at hnc
            obtain ⟨br, s, rep⟩ := x
            cases rep <;> first | exact absurd rfl hnc | (simp [say, mirrorCrash, hns])
          · intro ha
            obtain ⟨k, hk, hov⟩ := List.any_eq_true.1 ha
            obtain ⟨k', hk', rfl⟩ := lookedUp_keys hb hk
            rw [ho k' hk'] at hov
            cases hov
      · cases hp
    · cases hp

end Zdb
