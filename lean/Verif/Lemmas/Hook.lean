/-
The table of hooks follows the list of jobs.
-/
import Verif.Spec.Hook
namespace Zdb

abbrev Hooks.list (t : Hooks) : List Hook := t.slots.filterMap id

/-- The process of the hook was created and is not finished. -/
def Hook.running (h : Hook) : Prop := h.pid ≠ 0 ∧ h.finished = 0

/-- No empty slot comes before a running hook. -/
def Packed : List (Option Hook) → Prop
  | [] => True
  | none :: l => ∀ h ∈ l.filterMap id, ¬ h.running
  | some _ :: l => Packed l

theorem Packed.of_none : ∀ {l : List (Option Hook)}, (∀ h ∈ l.filterMap id, ¬ h.running) → Packed l
  | [], _ => trivial
  | none :: l, h => fun x hx => h x (by simpa using hx)
  | some a :: l, h => Packed.of_none (l := l) (fun x hx => h x (by
      simp only [List.filterMap_cons, id, List.mem_cons]
      exact .inr hx))

theorem hookPlace_spec (h : Hook) : ∀ (l : List (Option Hook)),
    (∀ l', hookPlace h l = some l' → (l'.filterMap id).Perm (l.filterMap id ++ [h]) ∧ (Packed l → Packed l')) ∧
    (hookPlace h l = none → ∀ x ∈ l, x ≠ none)
  | [] => by simp [hookPlace]
  | none :: l => by
    simp only [hookPlace, Option.some.injEq, reduceCtorEq, false_implies, and_true]
    rintro l' rfl
    refine ⟨?_, fun hp => Packed.of_none (l := l) hp⟩
    simp only [List.filterMap_cons, id]
    exact (List.perm_append_comm (l₁ := [h])).trans (by rfl)
  | some a :: l => by
    have ih := hookPlace_spec h l
    constructor
    · intro l' hl'
      simp only [hookPlace, Option.map_eq_some_iff] at hl'
      obtain ⟨m, hm, rfl⟩ := hl'
      obtain ⟨h1, h2⟩ := ih.1 m hm
      refine ⟨?_, h2⟩
      simp only [List.filterMap_cons, id, List.cons_append]
      exact h1.cons a
    · intro hn
      simp only [hookPlace, Option.map_eq_none_iff] at hn
      intro x hx
      rcases List.mem_cons.1 hx with rfl | hx
      · simp
      · exact ih.2 hn x hx

theorem Packed.append : ∀ {l : List (Option Hook)}, (∀ x ∈ l, x ≠ none) → ∀ {m}, Packed m → Packed (l ++ m)
  | [], _, _, h => h
  | none :: l, hl, _, _ => absurd rfl (hl none (List.mem_cons_self ..))
  | some a :: l, hl, _, h => Packed.append (l := l) (fun x hx => hl x (List.mem_cons_of_mem _ hx)) h

theorem filterMap_replicate_none (n : Nat) : (List.replicate n (none : Option Hook)).filterMap id = [] := by
  induction n with
  | zero => rfl
  | succ n ih => simpa [List.replicate_succ] using ih

theorem hooksAppend_spec (t : Hooks) (h : Hook) :
    (hooksAppend t h).list.Perm (t.list ++ [h]) ∧ (Packed t.slots → Packed (hooksAppend t h).slots) ∧
    (hooksAppend t h).active = t.active + 1 ∧ (hooksAppend t h).childwait = t.childwait := by
  have hs := hookPlace_spec h t.slots
  unfold hooksAppend
  cases hp : hookPlace h t.slots with
  | some l =>
    obtain ⟨h1, h2⟩ := hs.1 l hp
    exact ⟨h1, h2, rfl, rfl⟩
  | none =>
    refine ⟨?_, fun _ => ?_, rfl, rfl⟩
    · simp only [Hooks.list, List.filterMap_append, List.filterMap_cons, id, filterMap_replicate_none]
      exact List.Perm.refl _
    · refine Packed.append (hs.2 hp) (Packed.of_none (l := List.replicate _ none) ?_)
      rw [filterMap_replicate_none]
      simp

/-- What finding the hook of a process does to a hook. -/
def Hook.upd (pid now st : Nat) (h : Hook) : Hook :=
  if h.pid = pid ∧ h.finished = 0 then { h with finished := now, status := wexit st } else h

theorem hookMatch_spec {pid now st : Nat} (hpid : pid ≠ 0) : ∀ (l : List (Option Hook)),
    (∃ h ∈ l.filterMap id, h.pid = pid ∧ h.finished = 0) → Packed l →
    (((l.filterMap id).filter (fun h => h.pid != 0 && h.finished == 0)).map (·.pid)).Nodup →
    hookMatch pid now st l = some (l.map (Option.map (Hook.upd pid now st)))
  | [], h, _, _ => by simp at h
  | none :: l, h, hp, _ => by
    obtain ⟨x, hx, h1, h2⟩ := h
    exact absurd ⟨h1 ▸ hpid, h2⟩ (hp x (by simpa using hx))
  | some a :: l, h, hp, hn => by
    simp only [hookMatch, List.map_cons, Option.map_some]
    simp only [List.filterMap_cons, id] at hn h
    by_cases ha : a.pid = pid ∧ a.finished = 0
    · rw [if_pos ha]
      have : Hook.upd pid now st a = { a with finished := now, status := wexit st } := if_pos ha
      rw [this]
      congr 1
      rw [List.cons.injEq]
      refine ⟨rfl, ?_⟩
      symm
      have hself : ∀ x ∈ l, Option.map (Hook.upd pid now st) x = x := by
        intro x hx
        cases x with
        | none => rfl
        | some b =>
          simp only [Option.map_some, Option.some.injEq]
          refine if_neg (fun hb => ?_)
          rw [List.filter_cons_of_pos (by simp [ha, hpid]), List.map_cons, List.nodup_cons] at hn
          refine hn.1 (List.mem_map.2 ⟨b, List.mem_filter.2 ⟨?_, ?_⟩, by rw [hb.1, ha.1]⟩)
          · exact List.mem_filterMap.2 ⟨some b, hx, rfl⟩
          · simp [hb, hpid]
      exact List.map_congr_left (g := id) hself |>.trans (List.map_id l)
    · rw [if_neg ha]
      have hu : Hook.upd pid now st a = a := if_neg ha
      rw [hu, hookMatch_spec hpid l ?_ hp ?_]
      · rfl
      · obtain ⟨x, hx, h1⟩ := h
        rcases List.mem_cons.1 hx with rfl | hx
        · exact absurd h1 ha
        · exact ⟨x, hx, h1⟩
      · rw [List.filter_cons] at hn
        split at hn
        · exact (List.nodup_cons.1 hn).2
        · exact hn

theorem Packed.map {f : Hook → Hook} (hf : ∀ h, (f h).running → h.running) : ∀ {l : List (Option Hook)}, Packed l →
    Packed (l.map (Option.map f))
  | [], _ => trivial
  | none :: l, h => by
    intro x hx hr
    obtain ⟨y, hy, rfl⟩ := List.mem_filterMap.1 hx
    obtain ⟨z, hz, hzz⟩ := List.mem_map.1 hy
    cases z with
    | none => simp at hzz
    | some z => 
      simp only [Option.map_some, id, Option.some.injEq] at hzz
      subst hzz
      exact h z (List.mem_filterMap.2 ⟨_, hz, rfl⟩) (hf _ hr)
  | some _ :: l, h => Packed.map (l := l) hf h

theorem filterMap_map_id (f : Hook → Hook) (l : List (Option Hook)) :
    (l.map (Option.map f)).filterMap id = (l.filterMap id).map f := by
  induction l with
  | nil => rfl
  | cons a l ih => cases a <;> simp [ih]

/-! ### the invariant -/

structure HInv (y : HookSys) (J : List Job) : Prop where
  perm : y.tab.list.Perm (J.map Job.line)
  active : y.tab.active = J.length
  kids : y.kids = (J.filter Job.live).map (fun j => (j.pid, j.ended))
  nodup : (y.kids.map (·.1)).Nodup
  bound : ∀ k ∈ y.kids, k.1 ≤ 2 ^ 22
  wait : y.tab.childwait = y.kids.length
  seen : ∀ j ∈ J, ∀ n, j.seen = some n → 0 < n ∧ j.ended ≠ none
  packed : Packed y.tab.slots

theorem hinv_init : HInv hookSys0 [] := by
  refine ⟨?_, rfl, rfl, by simp [hookSys0], by simp [hookSys0], rfl, by simp, ?_⟩
  · exact List.Perm.refl _
  · intro h hh; simp [List.replicate] at hh

theorem Job.live_iff {j : Job} : j.live = true ↔ j.pid ≠ 0 ∧ j.seen = none := by
  simp [Job.live, Option.isNone_iff_eq_none]

namespace HInv
variable {y : HookSys} {J : List Job}

theorem mem (h : HInv y J) {p : Nat} {o : Option Nat} : (p, o) ∈ y.kids ↔ ∃ j ∈ J, j.live = true ∧ j.pid = p ∧ j.ended = o := by
  rw [h.kids, List.mem_map]
  constructor
  · rintro ⟨j, hj, he⟩
    simp only [Prod.mk.injEq] at he
    obtain ⟨h1, h2⟩ := List.mem_filter.1 hj
    exact ⟨j, h1, h2, he⟩
  · rintro ⟨j, h1, h2, h3, h4⟩
    exact ⟨j, List.mem_filter.2 ⟨h1, h2⟩, by rw [h3, h4]⟩

theorem ne0 (h : HInv y J) {p : Nat} {o : Option Nat} (hk : (p, o) ∈ y.kids) : p ≠ 0 := by
  obtain ⟨j, -, h1, rfl, -⟩ := h.mem.1 hk
  exact (Job.live_iff.1 h1).1

theorem uniq (h : HInv y J) {p : Nat} {o o' : Option Nat} (h1 : (p, o) ∈ y.kids) (h2 : (p, o') ∈ y.kids) : o = o' := by
  have hn := h.nodup
  generalize y.kids = K at h1 h2 hn
  induction K with
  | nil => cases h1
  | cons k K ih =>
    rw [List.map_cons, List.nodup_cons] at hn
    rcases List.mem_cons.1 h1 with e1 | h1 <;> rcases List.mem_cons.1 h2 with e2 | h2
    · rw [← e1] at e2; exact (Prod.mk.inj e2).2.symm
    · rw [← e1] at hn; exact absurd (List.mem_map.2 ⟨_, h2, rfl⟩) hn.1
    · rw [← e2] at hn; exact absurd (List.mem_map.2 ⟨_, h1, rfl⟩) hn.1
    · exact ih h1 h2 hn.2

theorem small (h : HInv y J) : y.kids.length ≤ 2 ^ 22 + 1 := by
  have h3 : y.kids.map (·.1) ⊆ List.range (2 ^ 22 + 1) := fun i hi => by
    obtain ⟨k, hk, rfl⟩ := List.mem_map.1 hi
    exact List.mem_range.2 (Nat.lt_succ_of_le (h.bound k hk))
  have := h.nodup.length_le_of_subset h3
  rw [List.length_map, List.length_range] at this
  exact this

theorem pids (h : HInv y J) : ((y.tab.list.filter (fun h => h.pid != 0 && h.finished == 0)).map (·.pid)).Nodup := by
  have hp := (h.perm.filter (fun h => h.pid != 0 && h.finished == 0)).map (·.pid)
  refine (hp.nodup_iff).2 ?_
  have hn := h.nodup
  rw [h.kids, List.map_map] at hn
  rw [List.filter_map, List.map_map]
  have hf : List.filter ((fun h : Hook => h.pid != 0 && h.finished == 0) ∘ Job.line) J = J.filter Job.live := by
    refine List.filter_congr (fun j hj => ?_)
    simp only [Function.comp, Job.line, Job.live]
    cases hs : j.seen with
    | none => simp
    | some n => have := (h.seen j hj n hs).1; simp; omega
  rw [hf]
  exact hn

/-- Starting a hook. -/
theorem start (h : HInv y J) (kind : Bytes) (args : List Bytes) (now : Nat) (fork : Option Nat)
    (hg : HookGuard y (.start kind args now fork)) :
    ∃ y', hookStep y (.start kind args now fork) = some y' ∧ HInv y' (jobStep J (.start kind args now fork)) := by
  refine ⟨_, rfl, ?_⟩
  have hsm := h.small
  obtain ⟨a1, a2, a3, a4⟩ := hooksAppend_spec y.tab { kind, args, pid := fork.getD 0, created := now, finished := 0, status := 0 }
  have hlist : (hookStart y.tab kind args now fork).slots =
      (hooksAppend y.tab { kind, args, pid := fork.getD 0, created := now, finished := 0, status := 0 }).slots := by
    unfold hookStart; cases fork <;> rfl
  have hact : (hookStart y.tab kind args now fork).active = y.tab.active + 1 := by
    unfold hookStart; cases fork <;> exact a3
  have hseen : ∀ j ∈ jobStep J (.start kind args now fork), ∀ n, j.seen = some n → 0 < n ∧ j.ended ≠ none := by
    intro j hj n hn
    rcases List.mem_append.1 hj with hj | hj
    · exact h.seen j hj n hn
    · rw [List.mem_singleton] at hj; subst hj; cases hn
  have hperm : (hookStart y.tab kind args now fork).list.Perm ((jobStep J (.start kind args now fork)).map Job.line) := by
    unfold Hooks.list
    rw [hlist]
    refine a1.trans ?_
    simp only [jobStep, List.map_append, List.map_cons, List.map_nil]
    exact h.perm.append_right _
  have hlen : (hookStart y.tab kind args now fork).active = (jobStep J (.start kind args now fork)).length := by
    rw [hact, h.active]; simp [jobStep]
  have hpk : Packed (hookStart y.tab kind args now fork).slots := hlist ▸ a2 h.packed
  cases fork with
  | none =>
    refine ⟨hperm, hlen, ?_, h.nodup, h.bound, ?_, hseen, hpk⟩
    · show y.kids = _
      rw [h.kids]
      simp [jobStep, Job.live]
    · show (hookStart y.tab kind args now none).childwait = _
      unfold hookStart
      exact a4.trans h.wait
  | some p =>
    obtain ⟨g1, g2, g3⟩ := hg p rfl
    refine ⟨hperm, hlen, ?_, ?_, ?_, ?_, hseen, hpk⟩
    · show y.kids ++ [(p, none)] = _
      rw [h.kids]
      have : p ≠ 0 := by omega
      simp [jobStep, Job.live, this]
    · show (List.map (fun (k : Nat × Option Nat) => k.1) (y.kids ++ [(p, none)])).Nodup
      rw [List.map_append, List.nodup_append]
      refine ⟨h.nodup, by simp, ?_⟩
      intro a ha b hb
      simp only [List.map_cons, List.map_nil, List.mem_singleton] at hb
      subst hb
      exact fun e => g3 (e ▸ ha)
    · intro k hk
      rcases List.mem_append.1 hk with hk | hk
      · exact h.bound k hk
      · rw [List.mem_singleton] at hk; subst hk; exact g2
    · show (hookStart y.tab kind args now (some p)).childwait = (y.kids ++ [(p, none)]).length
      simp only [hookStart, a4, h.wait, List.length_append, List.length_cons, List.length_nil]
      omega

/-- Starting a hook and waiting for it. -/
theorem startWait (h : HInv y J) (kind : Bytes) (args : List Bytes) (now p fin st : Nat) (got : Option Nat)
    (hg : HookGuard y (.wait kind args now (some p) fin st got)) :
    ∃ y', hookStep y (.wait kind args now (some p) fin st got) = some y' ∧
      HInv y' (jobStep J (.wait kind args now (some p) fin st got)) := by
  refine ⟨_, rfl, ?_⟩
  have hsm := h.small
  obtain ⟨a1, a2, a3, a4⟩ := hooksAppend_spec y.tab { kind, args, pid := p, created := now, finished := fin, status := wexit st }
  generalize hT : hooksAppend y.tab { kind, args, pid := p, created := now, finished := fin, status := wexit st } = T at a1 a2 a3 a4
  have e0 : hookStartWait y.tab kind args now (some p) fin st =
      { T with childwait := ((T.childwait + 1) % 2 ^ 32 + 2 ^ 32 - 1) % 2 ^ 32 } := by
    rw [← hT]; unfold hookStartWait; rfl
  have e1 : (hookStartWait y.tab kind args now (some p) fin st).slots = T.slots := by rw [e0]
  have e2 : (hookStartWait y.tab kind args now (some p) fin st).active = T.active := by rw [e0]
  have e3 : (hookStartWait y.tab kind args now (some p) fin st).childwait = ((T.childwait + 1) % 2 ^ 32 + 2 ^ 32 - 1) % 2 ^ 32 := by
    rw [e0]
  refine ⟨?_, ?_, ?_, h.nodup, h.bound, ?_, ?_, ?_⟩
  · show (List.filterMap id (hookStartWait y.tab kind args now (some p) fin st).slots).Perm _
    rw [e1]
    refine a1.trans ?_
    simp only [jobStep, List.map_append, List.map_cons, List.map_nil]
    exact h.perm.append_right _
  · show (hookStartWait y.tab kind args now (some p) fin st).active = _
    rw [e2, a3, h.active]; simp [jobStep]
  · show y.kids = _
    rw [h.kids]
    simp [jobStep, Job.live]
  · show (hookStartWait y.tab kind args now (some p) fin st).childwait = y.kids.length
    rw [e3, a4, h.wait]
    omega
  · intro j hj n hn
    rcases List.mem_append.1 hj with hj | hj
    · exact h.seen j hj n hn
    · rw [List.mem_singleton] at hj; subst hj; cases hn; exact ⟨hg.1, by simp⟩
  · show Packed (hookStartWait y.tab kind args now (some p) fin st).slots
    rw [e1]; exact a2 h.packed

/-- A child terminates. -/
theorem exit (h : HInv y J) (pid st : Nat) (hg : HookGuard y (.exit pid st)) :
    ∃ y', hookStep y (.exit pid st) = some y' ∧ HInv y' (jobStep J (.exit pid st)) := by
  refine ⟨_, rfl, ?_⟩
  have hpid := h.ne0 hg
  have hfst : (y.kids.map (fun (k : Nat × Option Nat) => if k.1 = pid then (k.1, some st) else k)).map (·.1) = y.kids.map (·.1) := by
    rw [List.map_map]
    refine List.map_congr_left (fun k _ => ?_)
    simp only [Function.comp]; split <;> rfl
  have hlive : ∀ j, Job.live (if j.pid = pid ∧ j.ended = none then { j with ended := some st } else j) = j.live := by
    intro j; split <;> rfl
  refine ⟨?_, ?_, ?_, ?_, ?_, ?_, ?_, h.packed⟩
  · simp only [jobStep, List.map_map]
    refine h.perm.trans (List.Perm.of_eq (List.map_congr_left (fun j hj => ?_)))
    simp only [Function.comp]
    split
    · next hc =>
      have : j.seen = none := by
        cases hs : j.seen with
        | none => rfl
        | some n => exact absurd hc.2 (h.seen j hj n hs).2
      simp [Job.line, this]
    · rfl
  · show y.tab.active = _
    rw [h.active]; simp [jobStep]
  · show y.kids.map _ = _
    simp only [jobStep, List.filter_map, List.map_map, h.kids]
    have : J.filter (Job.live ∘ fun j => if j.pid = pid ∧ j.ended = none then { j with ended := some st } else j) = J.filter Job.live :=
      List.filter_congr (fun j _ => hlive j)
    rw [this]
    refine List.map_congr_left (fun j hj => ?_)
    simp only [Function.comp]
    by_cases hp : j.pid = pid
    · have hm : (pid, j.ended) ∈ y.kids := h.mem.2 ⟨j, (List.mem_filter.1 hj).1, (List.mem_filter.1 hj).2, hp, rfl⟩
      have := h.uniq hm hg
      simp [hp, this]
    · simp [hp]
  · show (List.map _ (List.map _ y.kids)).Nodup
    rw [hfst]; exact h.nodup
  · intro k hk
    obtain ⟨k', hk', rfl⟩ := List.mem_map.1 hk
    have := h.bound k' hk'
    split <;> exact this
  · show y.tab.childwait = (y.kids.map _).length
    rw [List.length_map]; exact h.wait
  · intro j hj n hn
    obtain ⟨j', hj', rfl⟩ := List.mem_map.1 hj
    split at hn
    · next hc => exact ⟨(h.seen j' hj' n hn).1, by simp [hc]⟩
    · next hc => simpa [hc] using h.seen j' hj' n hn

end HInv

/-! ### the cleanup -/

/-- The jobs of the processes of `ps` are noticed at the time `now`. -/
def seeJob (ps : List Nat) (now : Nat) (j : Job) : Job :=
  if j.live = true ∧ j.pid ∈ ps then { j with seen := some now } else j

theorem seeJob_cons (p : Nat) (ps : List Nat) (now : Nat) (j : Job) :
    seeJob ps now (seeJob [p] now j) = seeJob (p :: ps) now j := by
  unfold seeJob
  by_cases hl : j.live = true
  · by_cases h1 : j.pid = p
    · have : ¬ (Job.live { j with seen := some now } = true) := by simp [Job.live]
      simp [hl, h1, this]
    · simp [hl, h1]
  · simp [hl]

theorem seeJob_nil (now : Nat) (j : Job) : seeJob [] now j = j := by simp [seeJob]

namespace HInv
variable {y : HookSys} {J : List Job}

/-- One process given by `waitpid`. -/
theorem reapOne (h : HInv y J) {p st now : Nat} (hk : (p, some st) ∈ y.kids) (hnow : 0 < now) :
    ∃ l, hookMatch p now st y.tab.slots = some l ∧
      HInv ⟨{ y.tab with slots := l, childwait := (y.tab.childwait + 2 ^ 32 - 1) % 2 ^ 32 }, y.kids.filter (fun k => k.1 != p)⟩
        (J.map (seeJob [p] now)) := by
  have hp := h.ne0 hk
  have hsm := h.small
  obtain ⟨j0, hj0, hl0, hp0, he0⟩ := h.mem.1 hk
  have hline : ∀ j ∈ J, (j.line.pid = p ∧ j.line.finished = 0) ↔ (j.live = true ∧ j.pid = p) := by
    intro j hj
    rw [Job.live_iff]
    simp only [Job.line]
    cases hs : j.seen with
    | none => simp; rintro rfl; exact hp
    | some n => have := (h.seen j hj n hs).1; simp; omega
  have hupd : ∀ j ∈ J, Hook.upd p now st j.line = (seeJob [p] now j).line := by
    intro j hj
    unfold Hook.upd seeJob
    by_cases hc : j.live = true ∧ j.pid = p
    · rw [if_pos ((hline j hj).2 hc), if_pos (by simpa using hc)]
      have hm : (p, j.ended) ∈ y.kids := h.mem.2 ⟨j, hj, hc.1, hc.2, rfl⟩
      have := h.uniq hm hk
      simp [Job.line, this]
    · rw [if_neg (fun hh => hc ((hline j hj).1 hh)), if_neg (by simpa using hc)]
  have hm := hookMatch_spec (now := now) (st := st) hp y.tab.slots
    ⟨j0.line, h.perm.mem_iff.2 (List.mem_map_of_mem hj0), (hline j0 hj0).2 ⟨hl0, hp0⟩⟩ h.packed h.pids
  have hlive : ∀ j, Job.live (seeJob [p] now j) = (j.live && j.pid != p) := by
    intro j
    unfold seeJob
    by_cases hl : j.live = true
    · by_cases h1 : j.pid = p
      · rw [if_pos ⟨hl, by simp [h1]⟩]
        simp [h1, Job.live]
      · simp [hl, h1]
    · simp [hl]
  refine ⟨_, hm, ?_, ?_, ?_, ?_, ?_, ?_, ?_, ?_⟩
  · show (List.filterMap id (y.tab.slots.map _)).Perm _
    rw [filterMap_map_id]
    refine (h.perm.map _).trans (List.Perm.of_eq ?_)
    rw [List.map_map, List.map_map]
    exact List.map_congr_left hupd
  · show y.tab.active = _
    rw [h.active, List.length_map]
  · show y.kids.filter _ = _
    rw [h.kids, List.filter_map, List.filter_filter, List.filter_map, List.map_map]
    have : J.filter (Job.live ∘ seeJob [p] now) = J.filter (fun a => ((fun k : Nat × Option Nat => k.1 != p) ∘ fun j : Job => (j.pid, j.ended)) a && a.live) :=
      List.filter_congr (fun j _ => by simp only [Function.comp, hlive]; rw [Bool.and_comm])
    rw [this]
    refine List.map_congr_left (fun j hj => ?_)
    have := (List.mem_filter.1 hj).2
    simp only [Function.comp, Bool.and_eq_true, bne_iff_ne] at this
    simp only [Function.comp]
    unfold seeJob
    rw [if_neg (by simp [this.1])]
  · exact (List.Sublist.map _ List.filter_sublist).nodup h.nodup
  · exact fun k hk => h.bound k (List.mem_filter.1 hk).1
  · show (y.tab.childwait + 2 ^ 32 - 1) % 2 ^ 32 = (y.kids.filter (fun k => k.1 != p)).length
    have hcount : (y.kids.filter (fun k => k.1 != p)).length + 1 = y.kids.length := by
      have hn := h.nodup
      clear hsm hm hlive hupd hline
      generalize y.kids = K at hk hn
      induction K with
      | nil => cases hk
      | cons k K ih =>
        rw [List.map_cons, List.nodup_cons] at hn
        rcases List.mem_cons.1 hk with e | hk'
        · subst e
          rw [List.filter_cons_of_neg (by simp), List.length_cons]
          congr 2
          refine List.filter_eq_self.2 (fun a ha => ?_)
          simp only [bne_iff_ne]
          exact fun e => hn.1 (List.mem_map.2 ⟨a, ha, e⟩)
        · rw [List.filter_cons_of_pos, List.length_cons, List.length_cons, ih hk' hn.2]
          simp only [bne_iff_ne]
          exact fun e => hn.1 (List.mem_map.2 ⟨_, hk', e.symm⟩)
    rw [h.wait]
    omega
  · intro j hj n hn
    obtain ⟨j', hj', rfl⟩ := List.mem_map.1 hj
    unfold seeJob at hn ⊢
    split at hn
    · next hc =>
      rw [if_pos hc]
      simp only [Option.some.injEq] at hn
      subst hn
      refine ⟨hnow, ?_⟩
      have hm : (p, j'.ended) ∈ y.kids := h.mem.2 ⟨j', hj', hc.1, by simpa using hc.2, rfl⟩
      rw [show ({ j' with seen := some now } : Job).ended = j'.ended from rfl, h.uniq hm hk]
      simp
    · next hc =>
      rw [if_neg hc]
      exact h.seen j' hj' n hn
  · refine Packed.map (fun x hx => ?_) h.packed
    unfold Hook.upd at hx
    split at hx
    · exact absurd hx.2 (by simp; omega)
    · exact hx

theorem reap (now : Nat) (hnow : 0 < now) : ∀ (done : List (Nat × Nat)) {y : HookSys} {J : List Job}, HInv y J →
    (∀ x ∈ done, (x.1, some x.2) ∈ y.kids) → (done.map (·.1)).Nodup →
    ∃ t, hookReap now done y.tab = some t ∧
      HInv ⟨t, y.kids.filter (fun k => !(done.map (·.1)).contains k.1)⟩ (J.map (seeJob (done.map (·.1)) now))
  | [], y, J, h, _, _ => by
    refine ⟨y.tab, rfl, ?_⟩
    have h1 : J.map (seeJob ([].map (fun x : Nat × Nat => x.1)) now) = J := by
      refine (List.map_congr_left (g := id) (fun j _ => seeJob_nil now j)).trans (List.map_id J)
    rw [h1]
    have h2 : y.kids.filter (fun k => !(([].map (fun x : Nat × Nat => x.1)) : List Nat).contains k.1) = y.kids :=
      List.filter_eq_self.2 (by simp)
    rw [h2]
    exact h
  | (p, st) :: done, y, J, h, hd, hn => by
    obtain ⟨l, h1, h2⟩ := h.reapOne (hd (p, st) (List.mem_cons_self ..)) hnow
    rw [List.map_cons, List.nodup_cons] at hn
    obtain ⟨t, h3, h4⟩ := reap now hnow done h2 (fun x hx => by
      refine List.mem_filter.2 ⟨hd x (List.mem_cons_of_mem _ hx), ?_⟩
      simp only [bne_iff_ne]
      exact fun e => hn.1 (List.mem_map.2 ⟨x, hx, e⟩)) hn.2
    refine ⟨t, ?_, ?_⟩
    · simp only [hookReap, h1]
      exact h3
    · have e1 : (J.map (seeJob [p] now)).map (seeJob (done.map (·.1)) now) = J.map (seeJob (((p, st) :: done).map (·.1)) now) := by
        rw [List.map_map]
        exact List.map_congr_left (fun j _ => seeJob_cons p _ now j)
      have e2 : (y.kids.filter (fun k => k.1 != p)).filter (fun k => !(done.map (·.1)).contains k.1) =
          y.kids.filter (fun k => !(((p, st) :: done).map (·.1)).contains k.1) := by
        rw [List.filter_filter]
        refine List.filter_congr (fun k _ => ?_)
        simp only [List.map_cons, List.contains_cons, Bool.not_or]
        rw [Bool.and_comm]
        rfl
      rw [e1] at h4
      simp only [] at h4
      rw [e2] at h4
      exact h4

theorem mem_zombies {K : List (Nat × Option Nat)} {x : Nat × Nat} : x ∈ zombies K ↔ (x.1, some x.2) ∈ K := by
  unfold zombies
  rw [List.mem_filterMap]
  constructor
  · rintro ⟨⟨a, o⟩, hk, he⟩
    cases o with
    | none => simp at he
    | some st => simp at he; subst he; exact hk
  · intro h
    exact ⟨_, h, rfl⟩

theorem zombies_nodup {K : List (Nat × Option Nat)} (h : (K.map (·.1)).Nodup) : ((zombies K).map (·.1)).Nodup := by
  induction K with
  | nil => simp [zombies]
  | cons k K ih =>
    rw [List.map_cons, List.nodup_cons] at h
    obtain ⟨a, o⟩ := k
    cases o with
    | none => simpa [zombies] using ih h.2
    | some st =>
      have : zombies ((a, some st) :: K) = (a, st) :: zombies K := by simp [zombies]
      rw [this, List.map_cons, List.nodup_cons]
      refine ⟨fun hm => ?_, ih h.2⟩
      obtain ⟨x, hx, e⟩ := List.mem_map.1 hm
      exact h.1 (List.mem_map.2 ⟨_, mem_zombies.1 hx, e⟩)

theorem clean (h : HInv y J) (now : Nat) (done : List (Nat × Nat)) (hg : HookGuard y (.clean now done)) :
    ∃ y', hookStep y (.clean now done) = some y' ∧ HInv y' (jobStep J (.clean now done)) := by
  obtain ⟨hnow, hd⟩ := hg
  have hany : J.any Job.live = true ↔ y.kids ≠ [] := by
    rw [h.kids, List.any_eq_true]
    constructor
    · rintro ⟨j, hj, hl⟩ e
      have := List.mem_filter.2 ⟨hj, hl⟩
      rw [List.map_eq_nil_iff.1 e] at this
      cases this
    · intro hne
      cases hf : J.filter Job.live with
      | nil => rw [hf] at hne; exact absurd rfl hne
      | cons j l =>
        have : j ∈ J.filter Job.live := by rw [hf]; exact List.mem_cons_self ..
        exact ⟨j, List.mem_filter.1 this⟩
  simp only [hookStep, hooksCleanup, jobStep]
  by_cases hc : y.tab.childwait = 0
  · have hk0 : y.kids = [] := List.eq_nil_of_length_eq_zero (by rw [← h.wait]; exact hc)
    have hno : ¬ J.any Job.live = true := fun hh => hany.1 hh hk0
    have hlive : ∀ j ∈ J, j.live = false := by
      intro j hj
      cases hl : j.live with
      | false => rfl
      | true => exact absurd (List.any_eq_true.2 ⟨j, hj, hl⟩) hno
    rw [if_pos hc, if_neg hno, if_pos hc]
    by_cases ha : y.tab.active = 0
    · have hJ : J = [] := List.eq_nil_of_length_eq_zero (by rw [← h.active]; exact ha)
      rw [if_pos ha]
      subst hJ
      exact ⟨_, rfl, h⟩
    · rw [if_neg ha]
      refine ⟨_, rfl, ?_⟩
      have hkeep : ∀ j ∈ J, j.keep now = !decide (j.line.finished ≠ 0 ∧ j.line.finished + 300 < now) := by
        intro j hj
        obtain ⟨k, a, p, c, e, _ | t⟩ := j
        · simp [Job.line, Job.keep]
        · have := (h.seen _ hj t rfl).1
          simp only [Job.line, Job.keep]
          have h0 : t ≠ 0 := by omega
          simp only [Option.getD_some, h0, ne_eq, not_false_eq_true, true_and]
          by_cases hlt : t + 300 < now
          · simp [hlt]
          · simp [hlt]; omega
      have hfm : ∀ l : List (Option Hook), List.filterMap id (l.map (fun x => x.bind (fun h => if h.finished ≠ 0 ∧ h.finished + 300 < now then none else some h))) =
          (l.filterMap id).filter (fun h => !decide (h.finished ≠ 0 ∧ h.finished + 300 < now)) := by
        intro l
        induction l with
        | nil => rfl
        | cons x l ih =>
          cases x with
          | none => simpa using ih
          | some a =>
            by_cases hx : a.finished ≠ 0 ∧ a.finished + 300 < now
            · simp only [List.map_cons, Option.bind_some, if_pos hx, List.filterMap_cons, id]
              rw [ih, List.filter_cons_of_neg (by simpa using hx)]
            · simp only [List.map_cons, Option.bind_some, if_neg hx, List.filterMap_cons, id]
              rw [ih, List.filter_cons_of_pos (by rw [decide_eq_false hx]; rfl)]
      have hfilt : J.filter (Job.keep now) = J.filter ((fun h : Hook => !decide (h.finished ≠ 0 ∧ h.finished + 300 < now)) ∘ Job.line) :=
        List.filter_congr hkeep
      refine ⟨?_, ?_, ?_, h.nodup, h.bound, h.wait, ?_, ?_⟩
      · show (List.filterMap id (y.tab.slots.map _)).Perm _
        rw [hfm, hfilt, ← List.filter_map]
        exact h.perm.filter _
      · show y.tab.active - _ = _
        rw [h.perm.countP_eq, hfilt, h.active, List.countP_map, ← List.countP_eq_length_filter]
        have := List.length_eq_countP_add_countP (p := (fun h : Hook => decide (h.finished ≠ 0 ∧ h.finished + 300 < now)) ∘ Job.line) (l := J)
        have e : List.countP ((fun h : Hook => !decide (h.finished ≠ 0 ∧ h.finished + 300 < now)) ∘ Job.line) J =
            List.countP (fun a => decide ¬((fun h : Hook => decide (h.finished ≠ 0 ∧ h.finished + 300 < now)) ∘ Job.line) a = true) J := by
          refine List.countP_congr (fun j _ => ?_)
          simp
        rw [e]
        omega
      · show y.kids = _
        rw [hk0]
        symm
        rw [List.map_eq_nil_iff, List.filter_eq_nil_iff]
        intro j hj
        rw [hlive j (List.mem_filter.1 hj).1]
        simp
      · intro j hj
        exact h.seen j (List.mem_filter.1 hj).1
      · refine Packed.of_none ?_
        show ∀ x ∈ List.filterMap id (y.tab.slots.map _), _
        rw [hfm]
        intro x hx hr
        have hx' := h.perm.mem_iff.1 (List.mem_filter.1 hx).1
        obtain ⟨j, hj, rfl⟩ := List.mem_map.1 hx'
        have hl := hlive j hj
        have : j.live = true := by
          rw [Job.live_iff]
          refine ⟨hr.1, ?_⟩
          cases hs : j.seen with
          | none => rfl
          | some t =>
            have h0 := (h.seen j hj t hs).1
            have := hr.2
            simp [Job.line, hs] at this
            omega
        rw [hl] at this
        cases this
  · have hk : y.kids ≠ [] := fun e => hc (by rw [h.wait, e]; rfl)
    rw [if_neg hc, if_pos (hany.2 hk), if_neg hc]
    obtain ⟨t, h1, h2⟩ := reap now hnow done h (fun x hx => mem_zombies.1 (hd.mem_iff.1 hx))
      (((hd.map (·.1)).nodup_iff).2 (zombies_nodup h.nodup))
    rw [h1]
    refine ⟨_, rfl, ?_⟩
    have hmem : ∀ j ∈ J, j.live = true → (j.pid ∈ done.map (·.1) ↔ j.ended.isSome = true) := by
      intro j hj hl
      have hk := h.mem.2 ⟨j, hj, hl, rfl, rfl⟩
      constructor
      · intro hp
        obtain ⟨x, hx, e⟩ := List.mem_map.1 hp
        have := h.uniq hk (e ▸ mem_zombies.1 (hd.mem_iff.1 hx))
        rw [this]; rfl
      · intro hs
        obtain ⟨st, hs⟩ := Option.isSome_iff_exists.1 hs
        rw [hs] at hk
        exact List.mem_map.2 ⟨(j.pid, st), hd.mem_iff.2 (mem_zombies.2 hk), rfl⟩
    have e1 : J.map (seeJob (done.map (·.1)) now) = J.map (fun j => if j.live ∧ j.ended.isSome then { j with seen := some now } else j) := by
      refine List.map_congr_left (fun j hj => ?_)
      unfold seeJob
      by_cases hl : j.live = true
      · have := hmem j hj hl
        by_cases hs : j.ended.isSome = true
        · rw [if_pos ⟨hl, this.2 hs⟩, if_pos ⟨hl, hs⟩]
        · rw [if_neg (fun hh => hs (this.1 hh.2)), if_neg (fun hh => hs hh.2)]
      · rw [if_neg (fun hh => hl hh.1), if_neg (fun hh => hl hh.1)]
    have e2 : y.kids.filter (fun k => !(done.map (·.1)).contains k.1) = y.kids.filter (fun k => k.2.isNone) := by
      refine List.filter_congr (fun k hk => ?_)
      obtain ⟨p, o⟩ := k
      obtain ⟨j, hj, hl, rfl, rfl⟩ := h.mem.1 hk
      have := hmem j hj hl
      cases he : j.ended with
      | none =>
        rw [he] at this
        have : ¬ j.pid ∈ done.map (·.1) := fun hh => by simpa using this.1 hh
        simp only [List.contains_iff_mem, Bool.not_eq_true', Option.isNone_none, ← Bool.not_eq_true]
        simpa using this
      | some st =>
        rw [he] at this
        have := this.2 rfl
        simp only [Option.isNone_some, Bool.not_eq_false', List.contains_iff_mem]
        exact this
    rw [e1, e2] at h2
    exact h2

theorem step (h : HInv y J) (e : HookEv) (hg : HookGuard y e) (hf : e.forked) :
    ∃ y', hookStep y e = some y' ∧ HInv y' (jobStep J e) := by
  cases e with
  | start kind args now fork => exact h.start kind args now fork hg
  | wait kind args now fork fin st got =>
    cases fork with
    | none => cases hf
    | some p => exact h.startWait kind args now p fin st got hg
  | exit pid st => exact h.exit pid st hg
  | clean now done => exact h.clean now done hg

theorem run : ∀ (es : List HookEv) {y : HookSys} {J : List Job}, HInv y J → HookOK y es → (∀ e ∈ es, e.forked) →
    ∃ y', hookRun y es = some y' ∧ HInv y' (jobRun J es)
  | [], y, _, h, _, _ => ⟨y, rfl, h⟩
  | e :: es, y, J, h, hok, hf => by
    obtain ⟨y1, h1, h2⟩ := h.step e hok.1 (hf e (List.mem_cons_self ..))
    obtain ⟨y2, h3, h4⟩ := run es h2 (hok.2 y1 h1) (fun x hx => hf x (List.mem_cons_of_mem _ hx))
    exact ⟨y2, by simp only [hookRun, h1, Option.bind_some]; exact h3, h4⟩

end HInv
end Zdb
