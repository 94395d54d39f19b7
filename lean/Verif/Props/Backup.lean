/-
C74: a copy kept by hooks is right.
-/
import Verif.Lemmas.Backup
import Verif.Spec.Example
import Verif.Props.Dirty
namespace Zdb.Backup

theorem UserCopies.inv {cfg : Option Mode} {u : Nat} {tr : List (Event × Reply)} {br : Branches} {s : Store} {b : Copies}
    {m : Nat → Prop} (h : UserCopies cfg u tr br s b m) (hsound : ∀ x ∈ tr, Sound x) {n : Nat}
    (hn : tr.length + n ≤ maxEvents) :
    Faithful s b m ∧ Room s.ifiles.length (totalData s) n ∧ ∃ G', UInv br u s G' ∧ absKV G' = specRun [] (tr.map (·.1.ns)) ∧ Agrees [] (nsTrace tr) ∧ s.DW := by
  obtain ⟨br0, br1, s0, h0, h1, h2⟩ := h.run
  have h1' := h1
  rw [freshNs_eq] at h1
  injection h1 with e1 e2
  have hm : cfg.getD .user = .user := by rcases h.hcfg with h | h <;> rw [h] <;> rfl
  rw [hm] at e2
  subst e1; subst e2
  have hf := loadNs_dirty h1'
  have hab : absKV [[]] = [] := rfl
  have := UInv.copies h.hcfg h2 (freshStore_uinv br0 u h0) h.ev (n := n) (by
    unfold maxEvents at hn
    constructor
    · simp [freshStore]; omega
    · simp [freshStore, totalData]; omega) hf.1 hsound
    ⟨fun i hi => by simp [freshStore] at hi, fun i hi => by simp [freshStore] at hi⟩
  simpa [hab] using this

theorem SeqCopies.inv {cfg : Option Mode} {u : Nat} {tr : List (Event × Reply)} {br : Branches} {s : Store} {b : Copies}
    {m : Nat → Prop} (h : SeqCopies cfg u tr br s b m) (hsound : ∀ x ∈ tr, Sound x) {n : Nat}
    (hn : tr.length + n ≤ maxEvents) :
    Faithful s b m ∧ Room s.ifiles.length (totalData s) n ∧ ∃ G', SInv s G' ∧ absSlots G' = specSeqRun [] (tr.map (·.1.ns)) ∧
      SeqAgrees [] (nsTrace tr) ∧ s.DW := by
  obtain ⟨br0, s0, h0, h2⟩ := h.run
  obtain ⟨hcfg, e⟩ := h0.fresh
  subst e
  have hf : (freshStore .seq).DW ∧ ∀ i, dirtyGet (freshStore .seq).dirty i = false :=
    loadNs_dirty (freshNs_eq (some .seq) br0 u)
  have hab : absSlots [[]] = [] := rfl
  have := SInv.copies hcfg h2 freshStore_sinv h.ev (by rw [hab]; exact h.near) (n := n) (by
    unfold maxEvents at hn
    constructor
    · simp [freshStore]; omega
    · simp [freshStore, totalData]; omega) hf.1 hsound
    ⟨fun i hi => by simp [freshStore] at hi, fun i hi => by simp [freshStore] at hi⟩
  simpa [hab] using this

/-- C74, user-key mode.  Whatever requests come, whenever files are changed, the server is stopped and started, and
    the copying of data files is done, and however often the script fails: each closed index file is equal to its
    copy, unless it is in the list that the script is given next, or was closed while the script failed; and each
    closed data file is equal to its copy, unless it is still to be copied.  And no reply is changed by the hooks.
    Missing: files closed while the script failed (`C74_failed_refuted`), a script that is killed
    (`C74_killed_refuted`), a list emptied by hand (`C74_reset_refuted`), RELOAD and a server that dies
    (`C74_reload_refuted`), failing index writes (`EvOK`). -/
theorem C74_user_partial {cfg : Option Mode} {u : Nat} {tr : List (Event × Reply)} {br : Branches} {s : Store}
    {b : Copies} {m : Nat → Prop} (h : UserCopies cfg u tr br s b m) (hsound : ∀ x ∈ tr, Sound x) :
    Faithful s b m ∧ Agrees [] (nsTrace tr) := by
  obtain ⟨h1, -, -, -, -, h2, -⟩ := h.inv hsound (n := 0) h.len
  exact ⟨h1, h2⟩

/-- C74, sequential mode. -/
theorem C74_seq_partial {cfg : Option Mode} {u : Nat} {tr : List (Event × Reply)} {br : Branches} {s : Store}
    {b : Copies} {m : Nat → Prop} (h : SeqCopies cfg u tr br s b m) (hsound : ∀ x ∈ tr, Sound x) :
    Faithful s b m ∧ SeqAgrees [] (nsTrace tr) := by
  obtain ⟨h1, -, -, -, -, h2, -⟩ := h.inv hsound (n := 0) h.len
  exact ⟨h1, h2⟩

/-- When the script never failed, NSJUMP with a script that does its work leaves every closed index file equal to its
    copy: nothing is left for the next time. -/
theorem Faithful.jumped {s : Store} {b : Copies} {m : Nat → Prop} (h : Faithful s b m) (hs : InStep s)
    (hcap : s.indexid + 1 < 2 ^ 32) {w : Waited} (hw : w.done) (part : List Nat) (hm : ∀ i, ¬ m i) :
    dirtyList (jump w s).1.dirty = [] ∧
    ∀ i, i < (jump w s).1.indexid → ((jump w s).2.foldl (Copies.hear w part) b).idx i = (jump w s).1.ifiles[i]? := by
  have h0 : w.status = 0 := by cases w <;> first | exact hw | exact hw.elim
  obtain ⟨k1, -, k3, -⟩ := jump_keeps hs hcap
  have hi := hs.i
  constructor
  · unfold jump
    dsimp only
    rw [if_pos h0]
    rw [List.eq_nil_iff_forall_not_mem]
    intro i him
    rw [mem_dirtyList, dirtyGet_reset] at him
    cases him
  · intro i hlt
    have e1 : (jump w s).1.ifiles = (Zdb.jump s).ifiles := by unfold jump; dsimp only; split <;> rfl
    have e3 : (jump w s).1.indexid = (Zdb.jump s).indexid := by unfold jump; dsimp only; split <;> rfl
    rw [e1]
    rw [e3, k3] at hlt
    show copied (if w.done then s.indexid :: dirtyList s.dirty else part) (Zdb.jump s).ifiles b.idx i = _
    rw [if_pos hw]
    unfold copied
    split
    · rfl
    · rename_i him
      have hne : i ≠ s.indexid := fun e => him (by rw [e]; exact List.mem_cons_self ..)
      have hnd : i ∉ dirtyList s.dirty := fun e => him (List.mem_cons_of_mem _ e)
      rw [(h.idx i (by omega) (hm i)).resolve_right hnd]
      have hf := List.getElem?_eq_getElem (l := s.ifiles) (i := i) (by omega)
      rw [hf, k1 i _ hf]

theorem C74_nsjump_user_partial {cfg : Option Mode} {u : Nat} {tr : List (Event × Reply)} {br : Branches} {s : Store}
    {b : Copies} {m : Nat → Prop} (h : UserCopies cfg u tr br s b m) (hsound : ∀ x ∈ tr, Sound x) (hm : ∀ i, ¬ m i)
    (hcap : s.indexid + 1 < 2 ^ 32) {w : Waited} (hw : w.done) (part : List Nat) (c : Ctx) (had : c.admin = true) (argv : List Bytes) :
    ∃ t L, command w c br s .nsjump argv = ((br, t, .ok), L) ∧ dirtyList t.dirty = [] ∧
      ∀ i, i < t.indexid → (L.foldl (Copies.hear w part) b).idx i = t.ifiles[i]? := by
  obtain ⟨h1, -, G, h2, -⟩ := h.inv hsound (n := 0) h.len
  obtain ⟨k1, k2⟩ := h1.jumped h2.toCore.inStep hcap hw part hm
  exact ⟨(jump w s).1, (jump w s).2, by simp only [command, cmdNsjump, had, if_true], k1, k2⟩

theorem C74_nsjump_seq_partial {cfg : Option Mode} {u : Nat} {tr : List (Event × Reply)} {br : Branches} {s : Store}
    {b : Copies} {m : Nat → Prop} (h : SeqCopies cfg u tr br s b m) (hsound : ∀ x ∈ tr, Sound x) (hm : ∀ i, ¬ m i)
    (hcap : s.indexid + 1 < 2 ^ 32) {w : Waited} (hw : w.done) (part : List Nat) (c : Ctx) (had : c.admin = true) (argv : List Bytes) :
    ∃ t L, command w c br s .nsjump argv = ((br, t, .ok), L) ∧ dirtyList t.dirty = [] ∧
      ∀ i, i < t.indexid → (L.foldl (Copies.hear w part) b).idx i = t.ifiles[i]? := by
  obtain ⟨h1, -, G, h2, -⟩ := h.inv hsound (n := 0) h.len
  obtain ⟨k1, k2⟩ := h1.jumped h2.toCore.inStep hcap hw part hm
  exact ⟨(jump w s).1, (jump w s).2, by simp only [command, cmdNsjump, had, if_true], k1, k2⟩

/-- When the server has stopped, the copies are the files. -/
theorem Faithful.all {s : Store} {b : Copies} {m : Nat → Prop} (h : Faithful s b m) (hs : InStep s) (hm : ∀ i, ¬ m i)
    (htodo : b.todo = []) {fi fd : List Bytes} (hfi : fi.length = s.indexid + 1) (hfd : fd.length = s.dataid + 1)
    (hi : ∀ i, i ≤ s.indexid → fi[i]? = ((close s).foldl (Copies.hear (.exited 0) []) b).idx i)
    (hd : ∀ i, i ≤ s.dataid → fd[i]? = ((close s).foldl (Copies.hear (.exited 0) []) b).dat i) :
    fi = s.ifiles ∧ fd = s.dfiles := by
  obtain ⟨k1, k2⟩ := h.closed hs
  have a1 := hs.i
  have a2 := hs.d
  constructor
  · refine List.ext_getElem? (fun i => ?_)
    by_cases hle : i ≤ s.indexid
    · rw [hi i hle, k1 i hle (Or.inr (hm i))]
    · rw [List.getElem?_eq_none (by omega), List.getElem?_eq_none (by omega)]
  · refine List.ext_getElem? (fun i => ?_)
    by_cases hle : i ≤ s.dataid
    · rw [hd i hle]
      refine (k2 i hle).resolve_right ?_
      show i ∉ b.todo
      simp [htodo]
    · rw [List.getElem?_eq_none (by omega), List.getElem?_eq_none (by omega)]

/-- C74, restoring, user-key mode.  When the server was stopped, no script failed and the data files were copied, a
    server that loads the copies, here or elsewhere, answers as the first one would have: its replies are those of
    the map reached by the requests sent to the first one. -/
theorem C74_restore_user_partial {cfg : Option Mode} {u : Nat} {tr : List (Event × Reply)} {br : Branches} {s : Store}
    {b : Copies} {m : Nat → Prop} (h : UserCopies cfg u tr br s b m) (hsound : ∀ x ∈ tr, Sound x) (hm : ∀ i, ¬ m i)
    (htodo : b.todo = []) {fi fd : List Bytes} (hfi : fi.length = s.indexid + 1) (hfd : fd.length = s.dataid + 1)
    (hi : ∀ i, i ≤ s.indexid → fi[i]? = ((close s).foldl (Copies.hear (.exited 0) []) b).idx i)
    (hd : ∀ i, i ≤ s.dataid → fd[i]? = ((close s).foldl (Copies.hear (.exited 0) []) b).dat i)
    {br0 : Branches} {u' : Nat} (hbr : ∀ h, (br0 h).filter (fun e => e.ns == u') = []) :
    ∃ br1 s1, loadNs cfg br0 u' fi fd = .ok br1 s1 ∧ ∀ tr2 br2 s2, NsRun cfg u' br1 s1 tr2 br2 s2 →
      (∀ x ∈ tr2, EvOK x.1) → tr.length + tr2.length ≤ maxEvents →
      Agrees (specRun [] (tr.map (·.1.ns))) tr2 := by
  obtain ⟨h1, hroom, G, h2, h3, -⟩ := h.inv hsound (n := 0) h.len
  obtain ⟨rfl, rfl⟩ := h1.all h2.toCore.inStep hm htodo hfi hfd hi hd
  have hlen := h2.irep.length
  obtain ⟨br1, s1, l1, l2, l3, l4, -⟩ := h2.load' (br0 := br0) (u := u') cfg h.hcfg (by have := hroom.1; omega) hbr
  refine ⟨br1, s1, l1, fun tr2 br2 s2 hrun hev hn => ?_⟩
  obtain ⟨-, hroom2, -⟩ := h.inv hsound hn
  obtain ⟨G', -, -, g3⟩ := UInv.run h.hcfg hrun l2 hev (by rw [l3, totalData, l4]; exact hroom2)
  rw [h3] at g3
  exact g3

/-- C74, restoring, sequential mode.  The last index file is not empty, or there is only one. -/
theorem C74_restore_seq_partial {cfg : Option Mode} {u : Nat} {tr : List (Event × Reply)} {br : Branches} {s : Store}
    {b : Copies} {m : Nat → Prop} (h : SeqCopies cfg u tr br s b m) (hsound : ∀ x ∈ tr, Sound x) (hm : ∀ i, ¬ m i)
    (hlast : s.indexid = 0 ∨ 29 < fileLen s.ifiles s.indexid)
    (htodo : b.todo = []) {fi fd : List Bytes} (hfi : fi.length = s.indexid + 1) (hfd : fd.length = s.dataid + 1)
    (hi : ∀ i, i ≤ s.indexid → fi[i]? = ((close s).foldl (Copies.hear (.exited 0) []) b).idx i)
    (hd : ∀ i, i ≤ s.dataid → fd[i]? = ((close s).foldl (Copies.hear (.exited 0) []) b).dat i)
    (br0 : Branches) (u' : Nat) :
    ∃ br1 s1, loadNs cfg br0 u' fi fd = .ok br1 s1 ∧ ∀ tr2 br2 s2, CleanRun cfg u' br1 s1 tr2 br2 s2 →
      (∀ x ∈ tr2, EvOK x.1) → NearRun (specSeqRun [] (tr.map (·.1.ns))) (tr2.map (·.1)) →
      tr.length + tr2.length ≤ maxEvents →
      SeqAgrees (specSeqRun [] (tr.map (·.1.ns))) tr2 := by
  obtain ⟨h1, hroom, G, h2, h3, -⟩ := h.inv hsound (n := 0) h.len
  obtain ⟨rfl, rfl⟩ := h1.all h2.toCore.inStep hm htodo hfi hfd hi hd
  have hlen := h2.irep.length
  obtain ⟨brs, ss, hst, -⟩ := h.run
  have hcfg := hst.fresh.1
  have hlast' : G.length = 1 ∨ 29 < logEnd G := by
    rcases hlast with hcl | hcl
    · left; have := h2.iid; omega
    · right; rw [h2.fileLen] at hcl; exact hcl
  obtain ⟨s1, l1, l2, l3, l4, -⟩ := h2.reload br0 u' cfg hcfg (by have := hroom.1; omega) hlast'
  have l1' : loadNs cfg br0 u' s.ifiles s.dfiles = .ok br0 s1 := by
    unfold reloadNs at l1
    simpa only [h2.mode] using l1
  refine ⟨br0, s1, l1', fun tr2 br2 s2 hrun hev hnear hn => ?_⟩
  obtain ⟨-, hroom2, -⟩ := h.inv hsound hn
  rw [← h3] at hnear ⊢
  obtain ⟨G', -, -, g3⟩ := SInv.run hcfg hrun l2 hev hnear (by rw [l3, totalData, l4]; exact hroom2)
  exact g3

/-! ### where the claim fails, and examples -/

/-- A state of an execution that can be computed. -/
structure Played where
  br : Branches
  s : Store
  b : Copies
  missed : List Nat
  out : List (Event × Reply)

/-- One request. -/
def Played.next (x : Played) (y : Ctx × DsCmd × List Bytes × Waited) : Played :=
  let z := command y.2.2.2 y.1 x.br x.s y.2.1 y.2.2.1
  { br := z.1.1, s := z.1.2.1, b := z.2.foldl (Copies.hear y.2.2.2 []) x.b
    missed := if z.2 ≠ [] ∧ ¬ y.2.2.2.done then x.s.indexid :: x.missed else x.missed
    out := x.out ++ [(.cmd y.1 y.2.1 y.2.2.1 y.2.2.2 [], z.1.2.2)] }

/-- Requests one after the other, in a new user-key namespace. -/
def play (l : List (Ctx × DsCmd × List Bytes × Waited)) : Played :=
  l.foldl Played.next ⟨fun _ => [], freshStore .user, .none, [], []⟩

theorem Run.snoc {cfg : Option Mode} {ok : Store → Store → NsEvent → Prop} {u : Nat} {br br' br'' : Branches} {s s' s'' : Store}
    {b b' b'' : Copies} {m m' m'' : Nat → Prop} {tr : List (Event × Reply)} {x : Event × Reply}
    (h : Run cfg ok u br s b m tr br' s' b' m') (hx : Run cfg ok u br' s' b' m' [x] br'' s'' b'' m'') :
    Run cfg ok u br s b m (tr ++ [x]) br'' s'' b'' m'' := by
  induction h with
  | nil => exact hx
  | cmd c d argv w part hu h1 hc _ ih => exact .cmd c d argv w part hu h1 hc (ih hx)
  | foreign h1 hc _ ih => exact .foreign h1 hc (ih hx)
  | late i hc _ ih => exact .late i hc (ih hx)
  | restart h1 hc _ ih => exact .restart h1 hc (ih hx)

/-- What is played is an execution. -/
theorem play_run (cfg : Option Mode) (u : Nat) (l : List (Ctx × DsCmd × List Bytes × Waited)) (hu : ∀ x ∈ l, x.1.u = u)
    (x : Played) {br : Branches} {s : Store} {b : Copies} {m : Nat → Prop}
    (hx : Run cfg AnyEv u br s b m x.out x.br x.s x.b (· ∈ x.missed)) :
    Run cfg AnyEv u br s b m (l.foldl Played.next x).out (l.foldl Played.next x).br (l.foldl Played.next x).s
      (l.foldl Played.next x).b (· ∈ (l.foldl Played.next x).missed) := by
  induction l generalizing x with
  | nil => exact hx
  | cons y l ih =>
    refine ih (fun z hz => hu z (List.mem_cons_of_mem _ hz)) (x.next y) ?_
    refine hx.snoc ?_
    have e : (fun i => i ∈ (x.next y).missed) = (fun i => i ∈ x.missed ∨
        ((command y.2.2.2 y.1 x.br x.s y.2.1 y.2.2.1).2 ≠ [] ∧ ¬ y.2.2.2.done ∧ i = x.s.indexid)) := by
      funext i
      apply propext
      unfold Played.next
      dsimp only
      by_cases h0 : (command y.2.2.2 y.1 x.br x.s y.2.1 y.2.2.1).2 ≠ [] ∧ ¬ y.2.2.2.done
      · rw [if_pos h0, List.mem_cons]
        constructor
        · rintro (h | h)
          · exact Or.inr ⟨h0.1, h0.2, h⟩
          · exact Or.inl h
        · rintro (h | h)
          · exact Or.inr h
          · exact Or.inl h.2.2
      · rw [if_neg h0]
        constructor
        · exact Or.inl
        · rintro (h | h)
          · exact h
          · exact absurd ⟨h.1, h.2.1⟩ h0
    rw [e]
    exact Run.cmd y.1 y.2.1 y.2.2.1 y.2.2.2 [] (hu y (List.mem_cons_self ..)) rfl trivial (Run.nil ..)

theorem play_user (l : List (Ctx × DsCmd × List Bytes × Waited)) (hu : ∀ x ∈ l, x.1.u = 7)
    (hev : ∀ x ∈ (play l).out, EvOK x.1.ns) (hlen : (play l).out.length ≤ maxEvents) :
    UserCopies none 7 (play l).out (play l).br (play l).s (play l).b (· ∈ (play l).missed) where
  hcfg := Or.inl rfl
  run := ⟨fun _ => [], fun _ => [], freshStore .user, fun _ => rfl, freshNs_eq .., by
    have := play_run none 7 l hu ⟨fun _ => [], freshStore .user, .none, [], []⟩ (br := fun _ => []) (s := freshStore .user)
      (b := .none) (m := fun _ => False) (by
        have e : (fun i : Nat => i ∈ ([] : List Nat)) = (fun _ => False) := by funext i; simp
        show Run none AnyEv 7 _ _ _ _ [] _ _ _ (fun i : Nat => i ∈ ([] : List Nat))
        rw [e]
        exact Run.nil ..)
    exact this⟩
  ev := hev
  len := hlen

/-- The requests of the examples. -/
def exSet (v : String) : Ctx × DsCmd × List Bytes × Waited := (exCtx, .set, [str "SET", str "a", str v], .exited 0)
def exDel : Ctx × DsCmd × List Bytes × Waited := (exCtx, .del, [str "DEL", str "a"], .exited 0)
def exJump (w : Waited) : Ctx × DsCmd × List Bytes × Waited := (exCtx, .nsjump, [str "NSJUMP"], w)
def exReset : Ctx × DsCmd × List Bytes × Waited := (exCtx, .index, [str "INDEX", str "DIRTY", str "RESET"], .exited 0)

set_option maxRecDepth 100000 in
/-- A file closed while the script failed is not named again: the next call succeeds, and the file has no copy and
    is not in the list. -/
theorem C74_failed_refuted :
    let x := play [exSet "one", exJump (.exited 1), exJump (.exited 0)]
    x.out.map (·.2) = [.bulk (str "a"), .ok, .ok] ∧
    0 < x.s.indexid ∧ x.b.idx 0 = none ∧ x.s.ifiles[0]?.isSome = true ∧ dirtyList x.s.dirty = [] :=
  ⟨rfl, by decide +kernel, rfl, rfl, rfl⟩

set_option maxRecDepth 100000 in
/-- A script that is killed by a signal counts as successful: the list is emptied, and the file which was in it
    differs from its copy.  File 0 was closed while the script worked. -/
theorem C74_killed_refuted :
    let x := play [exSet "one", exJump (.exited 0), exDel, exJump .killed]
    x.out.map (·.2) = [.bulk (str "a"), .ok, .ok, .ok] ∧
    0 < x.s.indexid ∧ 0 ∉ x.missed ∧ x.b.idx 0 ≠ x.s.ifiles[0]? ∧ dirtyList x.s.dirty = [] :=
  ⟨rfl, by decide +kernel, by decide +kernel, by decide +kernel, rfl⟩

set_option maxRecDepth 100000 in
/-- A file modified before INDEX DIRTY RESET, since the list was asked for, is not named to the script. -/
theorem C74_reset_refuted :
    let x := play [exSet "one", exJump (.exited 0), exDel, exReset]
    x.out.map (·.2) = [.bulk (str "a"), .ok, .ok, .ok] ∧
    0 < x.s.indexid ∧ 0 ∉ x.missed ∧ x.b.idx 0 ≠ x.s.ifiles[0]? ∧ dirtyList x.s.dirty = [] :=
  ⟨rfl, by decide +kernel, by decide +kernel, by decide +kernel, rfl⟩

set_option maxRecDepth 100000 in
/-- RELOAD, for which only `namespace-reloaded` is called, with the name of the namespace (libzdb/namespace.c:589-598),
    and a server that dies forget the list: the file differs from its copy and will not be named. -/
theorem C74_reload_refuted :
    let x := play [exSet "one", exJump (.exited 0), exDel]
    dirtyList x.s.dirty = [0] ∧ x.b.idx 0 ≠ x.s.ifiles[0]? ∧
    ∃ br s, reloadNs none x.br 7 x.s = .ok br s ∧ s.ifiles = x.s.ifiles ∧ dirtyList s.dirty = [] :=
  ⟨rfl, by decide +kernel, _, _, rfl, rfl, rfl⟩

/-- A key is written, files are changed, it is deleted and written again, files are changed twice. -/
def exCopies : List (Ctx × DsCmd × List Bytes × Waited) :=
  [exSet "one", exJump (.exited 0), exDel, exSet "two", exJump (.exited 0), exSet "three"]

set_option maxRecDepth 100000 in
/-- The hypotheses are met; file 1 is in the list, file 0 was copied again. -/
theorem exCopies_run : UserCopies none 7 (play exCopies).out (play exCopies).br (play exCopies).s (play exCopies).b
      (· ∈ (play exCopies).missed) ∧
    (∀ x ∈ (play exCopies).out, Sound x) ∧ (∀ i, ¬ i ∈ (play exCopies).missed) ∧
    dirtyList (play exCopies).s.dirty = [1] ∧ (play exCopies).b.idx 0 = (play exCopies).s.ifiles[0]? ∧
    (play exCopies).s.indexid = 2 ∧ (play exCopies).b.todo = [1, 0] := by
  have hout : (play exCopies).out = [(.cmd exCtx .set [str "SET", str "a", str "one"] (.exited 0) [], .bulk (str "a")),
      (.cmd exCtx .nsjump [str "NSJUMP"] (.exited 0) [], .ok),
      (.cmd exCtx .del [str "DEL", str "a"] (.exited 0) [], .ok),
      (.cmd exCtx .set [str "SET", str "a", str "two"] (.exited 0) [], .bulk (str "a")),
      (.cmd exCtx .nsjump [str "NSJUMP"] (.exited 0) [], .ok),
      (.cmd exCtx .set [str "SET", str "a", str "three"] (.exited 0) [], .bulk (str "a"))] := rfl
  have hargs : ∀ n rest, n ≠ [] → (∀ b ∈ n :: rest, b.length ≤ 2 ^ 23) → ArgsOK (n :: rest) := fun n rest h1 h2 =>
    ⟨⟨n, rest, rfl, h1⟩, h2⟩
  refine ⟨play_user _ (by decide +kernel) ?_ (by rw [hout]; decide), ?_, ?_, rfl, rfl, rfl, rfl⟩
  · rw [hout]
    intro x hx
    simp only [List.mem_cons, List.not_mem_nil, or_false] at hx
    rcases hx with rfl | rfl | rfl | rfl | rfl | rfl <;>
      exact ⟨exCtx_ok, hargs _ _ (by decide) (by decide)⟩
  · rw [hout]
    intro x hx
    simp only [List.mem_cons, List.not_mem_nil, or_false] at hx
    rcases hx with rfl | rfl | rfl | rfl | rfl | rfl <;> exact ⟨id, _, rfl⟩
  · have : (play exCopies).missed = [] := rfl
    rw [this]
    simp

end Zdb.Backup
