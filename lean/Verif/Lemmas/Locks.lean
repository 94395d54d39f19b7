/-
Invariant of the processes that start on a machine: past the comparison the two directories differ, and each lock taken is
the one of the file found in the directory.
-/
import Verif.Lemmas.Paths
namespace Zdb

/-- Nothing unusual happens: the paths are short enough for the buffer of the lock path, and `flock` fails only because
    somebody else holds the lock. -/
def Act.usual : Act → Prop
  | .spawn _ _ index data => index.length ≤ 501 ∧ data.length ≤ 501
  | .step _ l => l.flockError = false
  | _ => True

/-- The process holds the lock of the file in the directory of this path. -/
def HasLock (fs : Fs) (locks : List Flock) (pid cwd : Nat) (p : Bytes) : Prop :=
  ∃ x ∈ locks, x.owner = pid ∧ pid ∈ x.holders ∧ lookup fs cwd (lockPath p) = some x.ino

/-- What is known of a process at its stage; what needs the usual circumstances holds if `u`. -/
structure ProcOk (u : Prop) (fs : Fs) (locks : List Flock) (q : Proc) : Prop where
  differ : q.stage = .lockIndex ∨ q.stage = .lockData ∨ q.stage = .running →
    ∃ i d, lookup fs q.cwd q.index = some i ∧ lookup fs q.cwd q.data = some d ∧ i ≠ d
  index : u → q.stage = .lockData ∨ q.stage = .running → HasLock fs locks q.pid q.cwd q.index
  data : u → q.stage = .running → HasLock fs locks q.pid q.cwd q.data

structure WInv (u : Prop) (w : World) : Prop where
  pids : (w.procs.map (·.pid)).Nodup
  inos : (w.locks.map (·.ino)).Nodup
  short : u → ∀ q ∈ w.procs, q.index.length ≤ 501 ∧ q.data.length ≤ 501
  ok : ∀ q ∈ w.procs, ProcOk u w.fs w.locks q

/-- Locks of a process kept under another state of the machine. -/
def Kept (a b : List Flock) (pid : Nat) : Prop :=
  ∀ x ∈ a, x.owner = pid → pid ∈ x.holders → ∃ y ∈ b, y.ino = x.ino ∧ y.owner = pid ∧ pid ∈ y.holders

theorem HasLock.keep {fs fs' : Fs} {a b : List Flock} {pid cwd : Nat} {p : Bytes} (h : HasLock fs a pid cwd p)
    (hg : TreeGrows fs fs') (hk : Kept a b pid) : HasLock fs' b pid cwd p := by
  obtain ⟨x, hx, ho, hh, hl⟩ := h
  obtain ⟨y, hy, hi, ho', hh'⟩ := hk x hx ho hh
  exact ⟨y, hy, ho', hh', by rw [hi]; exact hg.lookup hl⟩

theorem ProcOk.keep {u : Prop} {fs fs' : Fs} {a b : List Flock} {q : Proc} (h : ProcOk u fs a q)
    (hg : TreeGrows fs fs') (hk : Kept a b q.pid) : ProcOk u fs' b q := by
  refine ⟨fun hs => ?_, fun hu hs => (h.index hu hs).keep hg hk, fun hu hs => (h.data hu hs).keep hg hk⟩
  obtain ⟨i, d, h1, h2, h3⟩ := h.differ hs
  exact ⟨i, d, hg.lookup h1, hg.lookup h2, h3⟩

theorem Kept.refl (a : List Flock) (pid : Nat) : Kept a a pid := fun x hx ho hh => ⟨x, hx, rfl, ho, hh⟩

theorem Kept.cons (a : List Flock) (x : Flock) (pid : Nat) : Kept a (x :: a) pid :=
  fun y hy ho hh => ⟨y, List.mem_cons_of_mem _ hy, rfl, ho, hh⟩

theorem WInv.boot (u : Prop) : WInv u bootWorld :=
  ⟨List.nodup_nil, List.nodup_nil, fun _ _ h => absurd h (by simp [bootWorld]), fun _ h => absurd h (by simp [bootWorld])⟩

theorem WInv.spawn {u : Prop} {w : World} (h : WInv u w) {pid cwd : Nat} {index data : Bytes} (hf : w.free pid = true)
    (hl : u → index.length ≤ 501 ∧ data.length ≤ 501) :
    WInv u { w with procs := ⟨pid, cwd, index, data, .data⟩ :: w.procs } := by
  refine ⟨?_, h.inos, ?_, ?_⟩
  · simp only [List.map_cons, List.nodup_cons]
    refine ⟨fun hm => ?_, h.pids⟩
    obtain ⟨q, hq, he⟩ := List.mem_map.1 hm
    unfold World.free at hf
    simp only [Bool.and_eq_true, Bool.not_eq_true', List.any_eq_false] at hf
    exact hf.1 q hq (by simp [he])
  · intro hu q hq
    rcases List.mem_cons.1 hq with rfl | hq
    · exact hl hu
    · exact h.short hu q hq
  · intro q hq
    rcases List.mem_cons.1 hq with rfl | hq
    · exact ⟨fun e => absurd e (by simp), fun _ e => absurd e (by simp), fun _ e => absurd e (by simp)⟩
    · exact h.ok q hq

theorem WInv.without {u : Prop} {w : World} (h : WInv u w) (pid : Nat) : WInv u (w.without pid) := by
  have hsub : ∀ q ∈ (w.without pid).procs, q ∈ w.procs ∧ q.pid ≠ pid := by
    intro q hq
    simpa [World.without] using hq
  refine ⟨?_, ?_, fun hu q hq => h.short hu q (hsub q hq).1, fun q hq => ?_⟩
  · exact h.pids.sublist (List.Sublist.map _ List.filter_sublist)
  · refine List.Nodup.sublist (List.Sublist.map _ List.filter_sublist) ?_
    rw [List.map_map]
    exact h.inos
  · obtain ⟨hq1, hq2⟩ := hsub q hq
    refine (h.ok q hq1).keep (TreeGrows.refl _) ?_
    intro x hx ho hh
    have hm : q.pid ∈ x.holders.filter (· != pid) := List.mem_filter.2 ⟨hh, by simpa using hq2⟩
    refine ⟨{ x with holders := x.holders.filter (· != pid) }, ?_, rfl, ho, hm⟩
    refine List.mem_filter.2 ⟨List.mem_map.2 ⟨x, hx, rfl⟩, ?_⟩
    simp only [Bool.not_eq_true', List.isEmpty_eq_false_iff]
    exact List.ne_nil_of_mem hm

theorem WInv.grow {u : Prop} {w : World} (h : WInv u w) {fs : Fs} (hg : TreeGrows w.fs fs) : WInv u { w with fs := fs } :=
  ⟨h.pids, h.inos, h.short, fun q hq => (h.ok q hq).keep hg (Kept.refl _ _)⟩

theorem WInv.hook {u : Prop} {w : World} (h : WInv u w) (pid child : Nat) :
    WInv u { w with locks := w.locks.map (fun x => if pid ∈ x.holders then { x with holders := child :: x.holders } else x) } := by
  refine ⟨h.pids, ?_, h.short, fun q hq => (h.ok q hq).keep (TreeGrows.refl _) ?_⟩
  · have : (w.locks.map (fun x => if pid ∈ x.holders then { x with holders := child :: x.holders } else x)).map (·.ino)
        = w.locks.map (·.ino) := by
      rw [List.map_map]
      refine List.map_congr_left fun x _ => ?_
      simp only [Function.comp]
      split <;> rfl
    rw [this]
    exact h.inos
  · intro x hx ho hh
    refine ⟨_, List.mem_map.2 ⟨x, hx, rfl⟩, ?_⟩
    split
    · exact ⟨rfl, ho, List.mem_cons_of_mem _ hh⟩
    · exact ⟨rfl, ho, hh⟩

theorem eq_of_nodup_map {α β : Type} {f : α → β} : ∀ {l : List α}, (l.map f).Nodup → ∀ {x y : α}, x ∈ l → y ∈ l →
    f x = f y → x = y
  | [], _, _, _, hx, _, _ => absurd hx (by simp)
  | a :: l, h, x, y, hx, hy, he => by
    simp only [List.map_cons, List.nodup_cons] at h
    rcases List.mem_cons.1 hx with ex | hx'
    · rcases List.mem_cons.1 hy with ey | hy'
      · rw [ex, ey]
      · rw [ex] at he
        exact absurd (List.mem_map.2 ⟨y, hy', he.symm⟩) h.1
    · rcases List.mem_cons.1 hy with ey | hy'
      · rw [ey] at he
        exact absurd (List.mem_map.2 ⟨x, hx', he⟩) h.1
      · exact eq_of_nodup_map h.2 hx' hy' he

/-- A process whose stage is advanced. -/
theorem WInv.advance {u : Prop} {w : World} {pid : Nat} {q : Proc} (h : WInv u w) (hq : q ∈ w.procs) (hpid : q.pid = pid)
    (hok : ProcOk u w.fs w.locks { q with stage := q.stage.next }) : WInv u (w.advance pid) := by
  have huniq : ∀ x ∈ w.procs, x.pid = pid → x = q := by
    intro x hx hxp
    exact eq_of_nodup_map h.pids hx hq (by rw [hxp, hpid])
  have hmap : (w.advance pid).procs.map (·.pid) = w.procs.map (·.pid) := by
    simp only [World.advance, List.map_map]
    refine List.map_congr_left fun x _ => ?_
    simp only [Function.comp]
    split <;> rfl
  refine ⟨by rw [hmap]; exact h.pids, h.inos, fun hu x hx => ?_, fun x hx => ?_⟩
  · obtain ⟨y, hy, he⟩ := List.mem_map.1 hx
    by_cases hyp : y.pid = pid
    · rw [if_pos hyp] at he
      rw [← he]
      exact h.short hu y hy
    · rw [if_neg hyp] at he
      rw [← he]
      exact h.short hu y hy
  · obtain ⟨y, hy, he⟩ := List.mem_map.1 hx
    by_cases hyp : y.pid = pid
    · rw [if_pos hyp] at he
      rw [← he, huniq y hy hyp]
      exact hok
    · rw [if_neg hyp] at he
      rw [← he]
      exact h.ok y hy

/-- `zdb_lock` that succeeds: the lock is there and it is new. -/
theorem zdbLock_on {w w' : World} {l : Luck} {pid cwd : Nat} {p : Bytes} (hl : l.flockError = false)
    (h : zdbLock w l pid cwd p = .on w') :
    ∃ n, w'.locks = ⟨n, pid, [pid]⟩ :: w.locks ∧ w'.procs = w.procs ∧ TreeGrows w.fs w'.fs ∧
      lookup w'.fs cwd (lockPath p) = some n ∧ ∀ x ∈ w.locks, x.ino ≠ n := by
  unfold zdbLock at h
  rcases ho : openLock w.fs l.may cwd (lockPath p) with _ | ⟨fs, n⟩
  · rw [ho] at h
    exact absurd h (by simp)
  rw [ho] at h
  simp only [hl, Bool.false_eq_true, if_false] at h
  by_cases ha : (w.locks.any (fun x => x.ino == n)) = true
  · rw [if_pos ha] at h
    exact absurd h (by simp)
  · rw [if_neg ha] at h
    injection h with h
    subst h
    obtain ⟨h1, h2⟩ := openLock_lookup (lockPath_ne p) ho
    refine ⟨n, rfl, rfl, h2, h1, fun x hx he => ha ?_⟩
    exact List.any_eq_true.2 ⟨x, hx, by simp [he]⟩

theorem zdbLock_refused {w : World} {fs : Fs} {l : Luck} {pid cwd : Nat} {p : Bytes}
    (h : zdbLock w l pid cwd p = .refused fs) : TreeGrows w.fs fs := by
  unfold zdbLock at h
  rcases ho : openLock w.fs l.may cwd (lockPath p) with _ | ⟨fs', n⟩
  · rw [ho] at h
    injection h with h
    rw [h]
    exact TreeGrows.refl _
  rw [ho] at h
  obtain ⟨_, h2⟩ := openLock_lookup (lockPath_ne p) ho
  simp only [] at h
  split at h
  · exact absurd h (by simp)
  split at h
  · injection h with h
    rw [← h]
    exact h2
  · exact absurd h (by simp)

theorem openStep_refused {w : World} {fs : Fs} {l : Luck} {q : Proc} (h : openStep w l q = .refused fs) :
    TreeGrows w.fs fs := by
  unfold openStep at h
  rcases hs : q.stage with _ | _ | _ | _ | _ | _
  · rw [hs] at h
    simp only [] at h
    split at h
    · exact absurd h (by simp)
    · split at h <;> exact absurd h (by simp)
  · rw [hs] at h
    simp only [] at h
    split at h
    · exact absurd h (by simp)
    · split at h <;> exact absurd h (by simp)
  · rw [hs] at h
    simp only [] at h
    split at h
    · split at h
      · injection h with h
        rw [h]
        exact TreeGrows.refl _
      · exact absurd h (by simp)
    · exact absurd h (by simp)
  · rw [hs] at h
    exact zdbLock_refused h
  · rw [hs] at h
    exact zdbLock_refused h
  · rw [hs] at h
    exact absurd h (by simp)

/-- `zdb_lock` that counts an error of `flock` as success. -/
theorem zdbLock_error {w w' : World} {l : Luck} {pid cwd : Nat} {p : Bytes} (hl : l.flockError = true)
    (h : zdbLock w l pid cwd p = .on w') : w'.locks = w.locks ∧ w'.procs = w.procs ∧ TreeGrows w.fs w'.fs := by
  unfold zdbLock at h
  rcases ho : openLock w.fs l.may cwd (lockPath p) with _ | ⟨fs, n⟩
  · rw [ho] at h
    exact absurd h (by simp)
  rw [ho] at h
  simp only [hl, if_true] at h
  injection h with h
  subst h
  exact ⟨rfl, rfl, (openLock_lookup (lockPath_ne p) ho).2⟩

theorem WInv.locked {u : Prop} {w w' : World} {l : Luck} {q : Proc} {p : Bytes} (h : WInv u w)
    (hu : u → l.flockError = false) (hz : zdbLock w l q.pid q.cwd p = .on w') :
    WInv u w' ∧ (u → HasLock w'.fs w'.locks q.pid q.cwd p) ∧ w'.procs = w.procs := by
  cases hl : l.flockError with
  | true =>
    obtain ⟨h1, h2, h3⟩ := zdbLock_error hl hz
    refine ⟨⟨by rw [h2]; exact h.pids, by rw [h1]; exact h.inos, by rw [h2]; exact h.short, fun x hx => ?_⟩, fun e => ?_, h2⟩
    · rw [h2] at hx
      rw [h1]
      exact (h.ok x hx).keep h3 (Kept.refl _ _)
    · rw [hu e] at hl
      exact absurd hl (by simp)
  | false =>
    obtain ⟨n, h1, h2, h3, h4, h5⟩ := zdbLock_on hl hz
    refine ⟨⟨by rw [h2]; exact h.pids, ?_, by rw [h2]; exact h.short, fun x hx => ?_⟩, fun _ => ?_, h2⟩
    · rw [h1]
      simp only [List.map_cons, List.nodup_cons]
      refine ⟨fun hm => ?_, h.inos⟩
      obtain ⟨x, hx, he⟩ := List.mem_map.1 hm
      exact h5 x hx he
    · rw [h2] at hx
      rw [h1]
      exact (h.ok x hx).keep h3 (Kept.cons _ _ _)
    · rw [h1]
      exact ⟨_, List.mem_cons_self, rfl, List.mem_singleton.2 rfl, h4⟩

theorem WInv.openStep {u : Prop} {w w' : World} {l : Luck} {q : Proc} (h : WInv u w) (hq : q ∈ w.procs)
    (hl : u → l.flockError = false) (ho : Zdb.openStep w l q = .on w') : WInv u (w'.advance q.pid) := by
  have hk := h.ok q hq
  unfold Zdb.openStep at ho
  rcases hs : q.stage with _ | _ | _ | _ | _ | _
  · rw [hs] at ho
    simp only [] at ho
    have hn : ∀ fs locks, ProcOk u fs locks { q with stage := q.stage.next } := fun fs locks => by
      rw [hs]
      exact ⟨fun e => absurd e (by simp [Stage.next]), fun _ e => absurd e (by simp [Stage.next]),
        fun _ e => absurd e (by simp [Stage.next])⟩
    split at ho
    · injection ho with ho
      subst ho
      exact h.advance hq rfl (hn _ _)
    · split at ho
      · exact absurd ho (by simp)
      · rename_i fs hc
        injection ho with ho
        subst ho
        exact (h.grow (grows_dirCreate hc)).advance hq rfl (hn _ _)
  · rw [hs] at ho
    simp only [] at ho
    have hn : ∀ fs locks, ProcOk u fs locks { q with stage := q.stage.next } := fun fs locks => by
      rw [hs]
      exact ⟨fun e => absurd e (by simp [Stage.next]), fun _ e => absurd e (by simp [Stage.next]),
        fun _ e => absurd e (by simp [Stage.next])⟩
    split at ho
    · injection ho with ho
      subst ho
      exact h.advance hq rfl (hn _ _)
    · split at ho
      · exact absurd ho (by simp)
      · rename_i fs hc
        injection ho with ho
        subst ho
        exact (h.grow (grows_dirCreate hc)).advance hq rfl (hn _ _)
  · rw [hs] at ho
    simp only [] at ho
    split at ho
    · rename_i d i hd hi
      split at ho
      · exact absurd ho (by simp)
      · rename_i hne
        injection ho with ho
        subst ho
        refine h.advance hq rfl ?_
        rw [hs]
        refine ⟨fun _ => ⟨i, d, hi, hd, fun e => hne (by rw [e])⟩, fun _ e => absurd e (by simp [Stage.next]),
          fun _ e => absurd e (by simp [Stage.next])⟩
    · exact absurd ho (by simp)
  · rw [hs] at ho
    obtain ⟨hw, hL, hp⟩ := h.locked hl ho
    have hq' : q ∈ w'.procs := by rw [hp]; exact hq
    refine hw.advance hq' rfl ?_
    have hk' := hw.ok q hq'
    rw [hs]
    exact ⟨fun _ => hk'.differ (by simp [hs]), fun e _ => hL e, fun _ e => absurd e (by simp [Stage.next])⟩
  · rw [hs] at ho
    obtain ⟨hw, hL, hp⟩ := h.locked hl ho
    have hq' : q ∈ w'.procs := by rw [hp]; exact hq
    refine hw.advance hq' rfl ?_
    have hk' := hw.ok q hq'
    rw [hs]
    exact ⟨fun _ => hk'.differ (by simp [hs]), fun e _ => hk'.index e (by simp [hs]), fun e _ => hL e⟩
  · rw [hs] at ho
    injection ho with ho
    subst ho
    refine h.advance hq rfl ?_
    rw [hs]
    exact ⟨fun _ => hk.differ (by simp [hs]), fun e _ => hk.index e (by simp [hs]), fun e _ => hk.data e hs⟩

theorem WInv.act {u : Prop} {w w' : World} {a : Act} (h : WInv u w) (hu : u → a.usual) (ha : Zdb.act w a = .now w') :
    WInv u w' := by
  cases a with
  | spawn pid cwd index data =>
    simp only [Zdb.act] at ha
    split at ha
    · rename_i hf
      injection ha with ha
      subst ha
      exact h.spawn (by simp only [Bool.and_eq_true] at hf; exact hf.1) hu
    · exact absurd ha (by simp)
  | step pid l =>
    simp only [Zdb.act] at ha
    rcases hf : w.procs.find? (fun q => q.pid == pid) with _ | q
    · rw [hf] at ha
      exact absurd ha (by simp)
    rw [hf] at ha
    simp only [] at ha
    have hq := List.mem_of_find?_eq_some hf
    have hp : q.pid = pid := by simpa using List.find?_some hf
    rcases ho : Zdb.openStep w l q with w1 | fs | _
    · rw [ho] at ha
      injection ha with ha
      subst ha
      rw [← hp]
      exact h.openStep hq hu ho
    · rw [ho] at ha
      injection ha with ha
      subst ha
      exact (h.grow (openStep_refused ho)).without pid
    · rw [ho] at ha
      exact absurd ha (by simp)
  | hook pid child =>
    simp only [Zdb.act] at ha
    split at ha
    · injection ha with ha
      subst ha
      exact h.hook pid child
    · exact absurd ha (by simp)
  | quit pid =>
    simp only [Zdb.act] at ha
    injection ha with ha
    subst ha
    exact h.without pid
  | create d c i =>
    simp only [Zdb.act] at ha
    split at ha
    · split at ha
      · injection ha with ha
        subst ha
        exact h.grow (treeGrows_addEnt _ _ _ _)
      · exact absurd ha (by simp)
    · exact absurd ha (by simp)

theorem WInv.acts {u : Prop} : ∀ {l : List Act} {w w' : World}, WInv u w → (u → ∀ a ∈ l, a.usual) →
    Zdb.acts w l = .now w' → WInv u w'
  | [], w, w', h, _, ha => by
    simp only [Zdb.acts] at ha
    injection ha with ha
    subst ha
    exact h
  | a :: l, w, w', h, hu, ha => by
    simp only [Zdb.acts] at ha
    rcases ho : Zdb.act w a with w1 | _ | _
    · rw [ho] at ha
      exact (h.act (fun e => hu e a List.mem_cons_self) ho).acts (fun e b hb => hu e b (List.mem_cons_of_mem _ hb)) ha
    · rw [ho] at ha
      exact absurd ha (by simp)
    · rw [ho] at ha
      exact absurd ha (by simp)

end Zdb
