/-
C52: the directories of an instance, the locks on them, and the directories of the namespaces.
-/
import Verif.Lemmas.PathTree
import Verif.Model.Node
import Verif.Spec.Example
namespace Zdb

/-- The directories a process works in. -/
def Serves (fs : Fs) (q : Proc) (d : Nat) : Prop :=
  isDir fs d = true ∧ (lookup fs q.cwd q.index = some d ∨ lookup fs q.cwd q.data = some d)

/-! ### index and data differ -/

/-- C52: whatever happens on the machine, the index and the data of a server that came through its start are two different
    files, however the paths are written and whatever links they pass. -/
theorem C52_index_and_data_differ {l : List Act} {w : World} (h : acts bootWorld l = .now w) {q : Proc}
    (hq : q ∈ w.procs) (hs : q.stage = .running) :
    ∃ i d, lookup w.fs q.cwd q.index = some i ∧ lookup w.fs q.cwd q.data = some d ∧ i ≠ d :=
  (((WInv.boot False).acts (fun e => e.elim) h).ok q hq).differ (.inr (.inr hs))

/-- C52: the comparison refuses nothing else: two different directories pass it. -/
theorem C52_compare_exact {l : List Act} {w : World} (h : acts bootWorld l = .now w) {q : Proc} {i d : Nat} (lk : Luck)
    (hs : q.stage = .compare) (hi : lookup w.fs q.cwd q.index = some i) (hd : lookup w.fs q.cwd q.data = some d)
    (hi' : isDir w.fs i = true) (hd' : isDir w.fs d = true) :
    openStep w lk q = if i = d then .refused w.fs else .on w := by
  have hwf := FsWF.boot.acts h
  simp only [openStep, hs, hi, hd]
  by_cases he : i = d
  · rw [if_pos he, if_pos (by rw [he])]
  · rw [if_neg he, if_neg fun e => he (hwf.realName hd' hi' e).symm]

/-! ### one process per directory -/

theorem WInv.serves {w : World} (h : WInv True w) {q : Proc} (hq : q ∈ w.procs) (hs : q.stage = .running) {d : Nat}
    (hd : Serves w.fs q d) :
    ∃ x ∈ w.locks, x.owner = q.pid ∧ walkPath w.fs 40 d [lockName] = some x.ino := by
  have hk := h.ok q hq
  obtain ⟨i0, d0, hi0, hd0, -⟩ := hk.differ (.inr (.inr hs))
  have hne : ∀ {p : Bytes} {n : Nat}, lookup w.fs q.cwd p = some n → p ≠ [] := by
    intro p n hn e
    rw [e] at hn
    exact absurd hn (by simp [lookup])
  rcases hd.2 with hl | hl
  · obtain ⟨x, hx, ho, -, hxl⟩ := hk.index trivial (.inr hs)
    obtain ⟨d', h1, -, h2⟩ := lookup_lockPath (hne hl) (h.short trivial q hq).1 hxl
    rw [hl] at h1
    injection h1 with h1
    exact ⟨x, hx, ho, by rw [h1]; exact h2⟩
  · obtain ⟨x, hx, ho, -, hxl⟩ := hk.data trivial hs
    obtain ⟨d', h1, -, h2⟩ := lookup_lockPath (hne hl) (h.short trivial q hq).2 hxl
    rw [hl] at h1
    injection h1 with h1
    exact ⟨x, hx, ho, by rw [h1]; exact h2⟩

/-- C52: in every execution of any number of processes that start, fail, die and run hooks in any order, on a tree that
    only grows, every server that came through its start works in two different directories, and no two of them share
    one.  Missing: the paths must have at most 501 bytes (`C52_long_path_refuted`) and `flock` must not fail for another
    reason than a lock (`C52_flock_error_refuted`). -/
theorem C52_partial {l : List Act} {w : World} (h : acts bootWorld l = .now w) (hu : ∀ a ∈ l, a.usual) :
    (∀ q ∈ w.procs, q.stage = .running → ∃ i d, lookup w.fs q.cwd q.index = some i ∧
      lookup w.fs q.cwd q.data = some d ∧ isDir w.fs i = true ∧ isDir w.fs d = true ∧ i ≠ d) ∧
    (∀ q ∈ w.procs, ∀ q' ∈ w.procs, q.stage = .running → q'.stage = .running → ∀ d, Serves w.fs q d →
      Serves w.fs q' d → q = q') := by
  have hw : WInv True w := (WInv.boot True).acts (fun _ => hu) h
  refine ⟨fun q hq hs => ?_, fun q hq q' hq' hs hs' d hd hd' => ?_⟩
  · have hk := hw.ok q hq
    obtain ⟨i, d, h1, h2, h3⟩ := hk.differ (.inr (.inr hs))
    have hne : ∀ {p : Bytes} {n : Nat}, lookup w.fs q.cwd p = some n → p ≠ [] := by
      intro p n hn e
      rw [e] at hn
      exact absurd hn (by simp [lookup])
    obtain ⟨x, _, _, _, hx⟩ := hk.index trivial (.inr hs)
    obtain ⟨i', a1, a2, -⟩ := lookup_lockPath (hne h1) (hw.short trivial q hq).1 hx
    obtain ⟨y, _, _, _, hy⟩ := hk.data trivial hs
    obtain ⟨d', b1, b2, -⟩ := lookup_lockPath (hne h2) (hw.short trivial q hq).2 hy
    rw [h1] at a1
    injection a1 with a1
    rw [h2] at b1
    injection b1 with b1
    exact ⟨i, d, h1, h2, by rw [a1]; exact a2, by rw [b1]; exact b2, h3⟩
  · obtain ⟨x, hx, ho, hl⟩ := hw.serves hq hs hd
    obtain ⟨y, hy, ho', hl'⟩ := hw.serves hq' hs' hd'
    rw [hl] at hl'
    injection hl' with hl'
    have hxy := eq_of_nodup_map hw.inos hx hy hl'
    refine eq_of_nodup_map hw.pids hq hq' ?_
    rw [← ho, ← ho', hxy]

/-! ### namespaces stay below -/

/-- C52: the directory of a namespace with an accepted name that is not empty is what the directory of the instance has
    under that name, and creating it adds this name there and nothing anywhere else. -/
theorem C52_namespace_directory {fs : Fs} {cwd : Nat} {p name : Bytes} {d : Nat} (hd : lookup fs cwd p = some d)
    (hv : validName name = true) (hne : name ≠ []) :
    (∀ n, lookup fs cwd (namespacePath p name) = some n → walkPath fs 40 d [name] = some n) ∧
    (∀ may fs', (namespacePath p name).length ≤ 4095 → ensureDir fs may cwd (namespacePath p name) = some fs' →
      fs' = fs ∨ fs' = addEnt fs d name (.dir d [])) := by
  have hp : p ≠ [] := by
    intro e
    rw [e] at hd
    exact absurd hd (by simp [lookup])
  have hsl : (47 : UInt8) ∉ name := by
    intro hm
    simp only [validName, Bool.not_eq_true', Bool.or_eq_false_iff] at hv
    rw [List.contains_iff_mem.2 hm] at hv
    exact absurd hv.1.2 (by simp)
  have hw : walkPath fs 40 (pathStart cwd p) (parts p) = some d := by
    unfold lookup at hd
    rw [if_neg hp] at hd
    exact hd
  have hstart : pathStart cwd (namespacePath p name) = pathStart cwd p := by
    unfold namespacePath pathStart
    cases p with
    | nil => exact absurd rfl hp
    | cons b p => simp
  have hparts : parts (namespacePath p name) = parts p ++ [name] := parts_child hsl hne
  have hnp : namespacePath p name ≠ [] := by simp [namespacePath]
  refine ⟨fun n hn => ?_, fun may fs' hlen he => ?_⟩
  · unfold lookup at hn
    rw [if_neg hnp, hparts, hstart] at hn
    obtain ⟨d', h1, j, hj, h2⟩ := walkPath_split fs _ _ _ _ _ hn
    rw [hw] at h1
    injection h1 with h1
    rw [h1]
    exact walkPath_le hj h2
  · unfold ensureDir at he
    split at he
    · injection he with he
      exact .inl he.symm
    · unfold dirCreate at he
      rw [List.take_of_length_le hlen] at he
      have hlast : (namespacePath p name).getLast? ≠ some 47 := by
        unfold namespacePath
        rw [List.getLast?_append, List.getLast?_cons]
        rw [List.getLast?_eq_some_getLast hne]
        simp only [Option.getD_some, Option.some_or, ne_eq, Option.some.injEq]
        exact fun e => hsl (by rw [← e]; exact List.getLast_mem hne)
      simp only [if_neg hnp, if_neg hlast, Option.some.injEq] at he
      rw [mkdirs_existing hw may] at he
      · unfold mkdir at he
        split at he
        · rename_i d' c hpar
          split at he
          · obtain ⟨h1, h2, -⟩ := dirOfPath_some hpar
            rw [hparts] at h1 h2
            rw [hstart, List.dropLast_concat, hw] at h2
            injection h2 with h2
            rw [List.getLast?_concat] at h1
            injection h1 with h1
            exact .inr (by rw [← he, h1, h2])
          · exact .inl he.symm
        · exact .inl he.symm
      · intro q hq
        obtain ⟨i, hi0, hi, hqe⟩ := mem_slashPrefixes hq
        have hile : i ≤ p.length := by
          rcases Nat.lt_or_ge p.length i with hlt | hge
          · unfold namespacePath at hi
            rw [List.getElem?_append_right (by omega)] at hi
            obtain ⟨k, hk⟩ : ∃ k, i - p.length = k + 1 := ⟨i - p.length - 1, by omega⟩
            rw [hk, List.getElem?_cons_succ] at hi
            exact absurd (List.mem_of_getElem? hi) hsl
          · exact hge
        have hq' : q = p.take i := by
          rw [hqe]
          unfold namespacePath
          rw [List.take_append_of_le_length hile]
        refine ⟨by rw [hq']; exact pathStart_take hi0 cwd, ?_⟩
        rcases Nat.lt_or_ge i p.length with hlt | hge
        · unfold namespacePath at hi
          rw [List.getElem?_append_left hlt] at hi
          rw [hq']
          exact parts_take hi
        · refine ⟨[], ?_⟩
          rw [hq', List.take_of_length_le hge, List.append_nil]

/-- C52 fails for a name that starts with a NUL: it is accepted as the empty name, its directory is the one of the
    instance itself, and NSDEL removes the directories of all other namespaces with it. -/
theorem C52_empty_name_refuted (tail : Bytes) (ht : tail.length ≤ 127) {fs : Fs} {cwd : Nat} {p : Bytes} {d par : Nat}
    {ents : List (Bytes × Nat)} (hd : lookup fs cwd p = some d) (hd' : fs[d]? = some (.dir par ents)) :
    nsArg [str "NSNEW", 0 :: tail] = .ok [] ∧ validName [] = true ∧ lookup fs cwd (namespacePath p []) = some d ∧
      ∀ name n, entOf ents name = some n → RemovedBy fs d n := by
  have hp : p ≠ [] := by
    intro e
    rw [e] at hd
    exact absurd hd (by simp [lookup])
  refine ⟨?_, rfl, ?_, fun name n hn => ?_⟩
  · simp only [nsArg, List.getElem?_cons_succ, List.getElem?_cons_zero, List.length_cons]
    rw [if_neg (by omega)]
    simp [cstr]
  · unfold lookup at hd ⊢
    rw [if_neg hp] at hd
    have : parts (namespacePath p []) = parts p := by
      unfold parts namespacePath
      rw [pathParts_append_slash]
      simp [pathParts]
    rw [if_neg (by simp [namespacePath]), this]
    have hs : pathStart cwd (namespacePath p []) = pathStart cwd p := by
      unfold namespacePath pathStart
      cases p with
      | nil => exact absurd rfl hp
      | cons b p => simp
    rw [hs]
    exact hd
  · unfold entOf at hn
    rcases hf : ents.find? (fun e => e.1 == name) with _ | e
    · rw [hf] at hn
      exact absurd hn (by simp)
    · rw [hf] at hn
      simp only [Option.map_some, Option.some.injEq] at hn
      rw [← hn]
      exact .child .self hd' (List.mem_of_find?_eq_some hf)

/-! ### executions -/

/-- Nothing unusual. -/
def luck : Luck := ⟨true, false⟩

/-- A process does all five steps of its start. -/
def startUp (pid : Nat) (l : Luck) : List Act := List.replicate 5 (.step pid l)

/-- A test of the machine at the end. -/
def ended (l : List Act) (f : World → Bool) : Bool :=
  match acts bootWorld l with
  | .now w => f w
  | _ => false

def endedUb (l : List Act) : Bool :=
  match acts bootWorld l with
  | .ub => true
  | _ => false

theorem ended_now {l : List Act} {f : World → Bool} (h : ended l f = true) : ∃ w, acts bootWorld l = .now w ∧ f w = true := by
  unfold ended at h
  split at h
  · exact ⟨_, by assumption, h⟩
  · exact absurd h (by simp)

/-- The processes that run and where their paths lead. -/
def runners (w : World) : List (Nat × Option Nat × Option Nat) :=
  (w.procs.filter (fun q => decide (q.stage = .running))).map
    (fun q => (q.pid, lookup w.fs q.cwd q.index, lookup w.fs q.cwd q.data))

/-- Two servers start side by side; a third one that reaches the data of the first through a link is refused, a fourth
    whose two paths lead to one directory too. -/
def exServers : List Act :=
  [.spawn 10 0 (str "/i") (str "d/x/"), .spawn 11 0 (str "/j") (str "/e"), .step 11 luck, .step 10 luck, .step 10 luck,
    .step 11 luck, .step 10 luck, .step 11 luck, .step 10 luck, .step 11 luck, .step 11 luck, .step 10 luck,
    .create 0 (str "l") (.link (str "d"))] ++
  (.spawn 12 0 (str "/k") (str "/l/x") :: startUp 12 luck) ++
  (.spawn 13 0 (str "/m") (str "/i/../m//.") :: List.replicate 3 (.step 13 luck))

/-- Case for `C52_partial` and `C52_index_and_data_differ`. -/
theorem C52_servers_example : (∀ a ∈ exServers, a.usual) ∧
    ended exServers (fun w => decide (runners w = [(11, some 5, some 1), (10, some 4, some 3)] ∧ w.procs.length = 2)) = true := by
  refine ⟨?_, by decide +kernel⟩
  intro a ha
  have : exServers.all (fun a => match a with
      | .spawn _ _ i d => decide (i.length ≤ 501 ∧ d.length ≤ 501)
      | .step _ l => !l.flockError
      | _ => true) = true := by decide +kernel
  have h := List.all_eq_true.1 this a ha
  cases a with
  | spawn _ _ i d => simpa [Act.usual] using h
  | step _ l => simpa [Act.usual] using h
  | hook _ _ => trivial
  | quit _ => trivial
  | create _ _ _ => trivial

/-- Case for `C52_namespace_directory`: the instance of `/d` creates the directory of `foo`. -/
theorem C52_namespace_example :
    lookup [.dir 0 [(str "d", 1)], .dir 0 []] 0 (str "/d") = some 1 ∧ validName (str "foo") = true ∧
    ensureDir [.dir 0 [(str "d", 1)], .dir 0 []] true 0 (namespacePath (str "/d") (str "foo")) =
      some [.dir 0 [(str "d", 1)], .dir 0 [(str "foo", 2)], .dir 1 []] := by decide +kernel

/-- A directory of 505 bytes. -/
def longPath : Bytes := 47 :: List.replicate 250 97 ++ 47 :: List.replicate 253 98

/-- C52 fails for long paths: the name of the lock file is cut, so a server that uses the long path and one that reaches
    the same directory through a link lock different files, and both serve the directory. -/
theorem C52_long_path_refuted : ∃ (l : List Act) (w : World), acts bootWorld l = .now w ∧
    (∀ a ∈ l, ∀ pid lk, a = .step pid lk → lk.flockError = false) ∧
    ∃ q ∈ w.procs, ∃ q' ∈ w.procs, q.pid ≠ q'.pid ∧ q.stage = .running ∧ q'.stage = .running ∧
      ∃ d, lookup w.fs q.cwd q.data = some d ∧ lookup w.fs q'.cwd q'.data = some d := by
  let l : List Act := (.spawn 1 0 (str "/i") longPath :: startUp 1 luck) ++ [.create 0 (str "s") (.link longPath)] ++
    (.spawn 2 0 (str "/j") (str "/s") :: startUp 2 luck)
  have h : ended l (fun w => decide (runners w = [(2, some 7, some 2), (1, some 3, some 2)])) = true := by decide +kernel
  obtain ⟨w, hw, hf⟩ := ended_now h
  have hf := of_decide_eq_true hf
  refine ⟨l, w, hw, ?_, ?_⟩
  · intro a ha pid lk he
    have hl : ∀ a ∈ l, (match a with | .step _ k => k.flockError = false | _ => True) := by
      simp [l, startUp, luck]
    have := hl a ha
    rw [he] at this
    exact this
  · unfold runners at hf
    have m2 : (2, some 7, some 2) ∈ (w.procs.filter (fun q => decide (q.stage = .running))).map
        (fun q => (q.pid, lookup w.fs q.cwd q.index, lookup w.fs q.cwd q.data)) := by rw [hf]; simp
    have m1 : (1, some 3, some 2) ∈ (w.procs.filter (fun q => decide (q.stage = .running))).map
        (fun q => (q.pid, lookup w.fs q.cwd q.index, lookup w.fs q.cwd q.data)) := by rw [hf]; simp
    obtain ⟨a, ha, ea⟩ := List.mem_map.1 m2
    obtain ⟨b, hb, eb⟩ := List.mem_map.1 m1
    simp only [Prod.mk.injEq] at ea eb
    obtain ⟨ha1, ha2⟩ := List.mem_filter.1 ha
    obtain ⟨hb1, hb2⟩ := List.mem_filter.1 hb
    exact ⟨a, ha1, b, hb1, by rw [ea.1, eb.1]; decide, of_decide_eq_true ha2, of_decide_eq_true hb2, 2, ea.2.2, eb.2.2⟩

/-- C52 fails when `flock` fails for another reason (no locks available, not supported by the file system): the error
    counts as success, and two servers with the same settings run. -/
theorem C52_flock_error_refuted : ended
    ((.spawn 1 0 (str "/i") (str "/d") :: startUp 1 ⟨true, true⟩) ++ (.spawn 2 0 (str "/i") (str "/d") :: startUp 2 ⟨true, true⟩))
    (fun w => decide (runners w = [(2, some 2, some 1), (1, some 2, some 1)])) = true := by decide +kernel

/-- C52 fails for a path that cannot be created: what `realpath` answered is not looked at, `strcmp` gets a NULL pointer.
    Here a file is in the way. -/
theorem C52_realpath_refuted :
    endedUb ([.create 0 (str "f") .file, .spawn 1 0 (str "/i") (str "/f/d")] ++ List.replicate 3 (.step 1 luck)) = true ∧
    endedUb (.spawn 1 0 (str "/i") (str "/d") :: List.replicate 3 (.step 1 ⟨false, false⟩)) = true := by decide +kernel

/-- C52 fails for an empty path: the byte before the buffer is read. -/
theorem C52_empty_path_refuted : endedUb [.spawn 1 0 (str "/i") [], .step 1 luck] = true := by decide +kernel

/-- A hook keeps the locks of the server that started it: while it runs, a server that died cannot be started again. -/
theorem C52_hook_keeps_lock : ended
    ((.spawn 1 0 (str "/i") (str "/d") :: startUp 1 luck) ++ [.hook 1 77, .quit 1] ++
      (.spawn 2 0 (str "/i") (str "/d") :: List.replicate 4 (.step 2 luck)))
    (fun w => w.procs.isEmpty && decide (w.locks.map (·.holders) = [[77], [77]])) = true := by decide +kernel

end Zdb
