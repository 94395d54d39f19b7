/-
C71 for the hooks.
-/
import Verif.Spec.HookHeap
import Verif.Lemmas.ApiHeap
import Verif.Lemmas.HeapSim
namespace Zdb.Heap

section
variable {l : Level} {M : Mem} {o : Own} {β : Type} {Q : β → Mem → Prop}

/-- The owners of slots. -/
def slotsO (sl : List (Option Hook)) : Own := cnt (sl.flatMap slotBlocks)

theorem slotsO_nil (x : Nat) : slotsO [] x = 0 := rfl
theorem slotsO_cons (a : Option Hook) (sl : List (Option Hook)) (x : Nat) :
    slotsO (a :: sl) x = cnt (slotBlocks a) x + slotsO sl x := by
  simp only [slotsO, List.flatMap_cons, cnt_append]
theorem slotsO_append (a b : List (Option Hook)) (x : Nat) : slotsO (a ++ b) x = slotsO a x + slotsO b x := by
  simp only [slotsO, List.flatMap_append, cnt_append]
theorem slotsO_replicate (n x : Nat) : slotsO (List.replicate n none) x = 0 := by
  induction n with
  | zero => rfl
  | succ n ih => rw [List.replicate_succ, slotsO_cons, ih]; rfl

theorem hookO (h : Hook) (x : Nat) : cnt (slotBlocks (some h)) x = one h.self x + (one h.argv x + cnt h.args x) := by
  simp only [slotBlocks, Hook.blocks, cnt_cons]

theorem wp_freeAll {k : Unit → Prog β} : ∀ (bs : List Nat) (o : Own) (M : Mem), Holds l (o + cnt bs) M →
    (∀ M, Holds l o M → wp l (k ()) Q M) → wp l (each freeb bs >>= k) Q M := by
  intro bs
  induction bs with
  | nil =>
    intro o M h hk
    exact hk M (h.re (by own))
  | cons b bs ih =>
    intro o M h hk
    rw [wp_bind]
    unfold each
    refine wp_freeb h (by owna) fun M h => ?_
    exact wp_bind.1 (ih o M (h.re (by own)) hk)

theorem wp_hookFree {g : Hook} {k : Unit → Prog β} (h : Holds l (o + cnt (slotBlocks (some g))) M)
    (hk : ∀ M, Holds l o M → wp l (k ()) Q M) : wp l (hookFree g >>= k) Q M := by
  have h : Holds l (o + one g.self + one g.argv + cnt g.args) M := h.re fun x => by
    simp only [add_ap, hookO]
    omega
  rw [wp_bind]
  unfold hookFree
  us
  us
  refine wp_freeAll g.args (o + one g.self + one g.argv) M h fun M h => ?_
  fr
  apply wp_tail
  fr
  exact hk M (h.re (by own))

theorem wp_strdups : ∀ (n : Nat) (o : Own) (M : Mem), Holds l o M →
    wp l (strdups n) (fun bs M => Holds l (o + cnt bs) M) M := by
  intro n
  induction n with
  | zero =>
    intro o M h
    exact h.re (by own)
  | succ n ih =>
    intro o M h
    unfold strdups
    al b
    refine wp_call (ih _ M h) fun bs M h => ?_
    exact h.re (by own)

theorem place_some {g : Hook} : ∀ {sl sl' : List (Option Hook)}, place g sl = some sl' → ∀ x,
    slotsO sl' x = cnt (slotBlocks (some g)) x + slotsO sl x := by
  intro sl
  induction sl with
  | nil => intro sl' h; simp [place] at h
  | cons a sl ih =>
    intro sl' h x
    cases a with
    | none =>
      simp only [place, Option.some.injEq] at h
      subst h
      rw [slotsO_cons, slotsO_cons]
      simp only [slotBlocks, cnt_nil]
      omega
    | some f =>
      simp only [place, Option.map_eq_some_iff] at h
      obtain ⟨sl2, h1, rfl⟩ := h
      rw [slotsO_cons, slotsO_cons, ih h1 x]
      omega

/-- Between two events. -/
def HooksOk (l : Level) (H : HookList) (M : Mem) : Prop := Holds l (one H.list + slotsO H.slots) M

theorem wp_appendHook {H : HookList} {g : Hook} (h : Holds l (one H.list + slotsO H.slots + cnt (slotBlocks (some g))) M) :
    wp l (appendHook H g) (HooksOk l) M := by
  unfold appendHook
  us
  cases e : place g H.slots with
  | some sl =>
    refine h.re fun x => ?_
    have := place_some e x
    simp only [add_ap, this]
    omega
  | none =>
    refine wp_realloc h (by owna) fun b M h => ?_
    us
    refine h.re fun x => ?_
    simp only [add_ap, sub_ap, slotsO_append, slotsO_cons, slotsO_replicate]
    omega

theorem wp_hookRun {H : HookList} (n : Nat) (w : Bool) (h : HooksOk l H M) : wp l (hookRun H n w) (HooksOk l) M := by
  unfold HooksOk at h
  unfold hookRun
  al a
  al b
  us
  us
  refine wp_call (wp_strdups (n + 2) _ M h) ?_
  clear h
  intro bs M h
  us
  refine wp_appendHook (h.re fun x => ?_)
  simp only [add_ap, hookO]
  omega

theorem wp_expire : ∀ (sl : List (Option Hook)) (o : Own) (M : Mem), Holds l (o + slotsO sl) M →
    wp l (expire sl) (fun sl' M => Holds l (o + slotsO sl') M) M := by
  intro sl
  induction sl with
  | nil => intro o M h; exact h
  | cons a sl ih =>
    intro o M h
    cases a with
    | none =>
      unfold expire
      refine wp_call (ih o M (h.re fun x => ?_)) fun sl' M h => h.re fun x => ?_
      · simp only [add_ap, slotsO_cons, slotBlocks, cnt_nil]; omega
      · simp only [add_ap, slotsO_cons, slotBlocks, cnt_nil]; omega
    | some g =>
      unfold expire
      refine wp_useb h ?_ ?_
      · simp only [add_ap, slotsO_cons, hookO, one_self]; omega
      as old
      br
      · refine wp_hookFree (o := o + slotsO sl) (h.re fun x => ?_) fun M h => ?_
        · simp only [add_ap, slotsO_cons]; omega
        refine wp_call (ih o M h) fun sl' M h => h.re fun x => ?_
        simp only [add_ap, slotsO_cons, slotBlocks, cnt_nil]; omega
      · refine wp_call (ih (o + cnt (slotBlocks (some g))) M (h.re fun x => ?_)) fun sl' M h => h.re fun x => ?_
        · simp only [add_ap, slotsO_cons]; omega
        · simp only [add_ap, slotsO_cons]; omega

theorem wp_ended (hl : l ≠ .any) : ∀ (sl : List (Option Hook)) (o : Own) (M : Mem), Holds l (o + slotsO sl) M →
    wp l (ended sl) (fun sl' M => Holds l (o + slotsO sl') M) M := by
  intro sl
  induction sl with
  | nil => intro o M h; exact h
  | cons a sl ih =>
    intro o M h
    cases a with
    | none => exact wp_hazard hl
    | some g =>
      unfold ended
      refine wp_useb h ?_ ?_
      · simp only [add_ap, slotsO_cons, hookO, one_self]; omega
      as same
      br
      · refine h.re fun x => ?_
        simp only [add_ap, slotsO_cons, hookO]
      · refine wp_call (ih (o + cnt (slotBlocks (some g))) M (h.re fun x => ?_)) fun sl' M h => h.re fun x => ?_
        · simp only [add_ap, slotsO_cons]; omega
        · simp only [add_ap, slotsO_cons]; omega

theorem wp_endeds (hl : l ≠ .any) : ∀ (n : Nat) (sl : List (Option Hook)) (o : Own) (M : Mem), Holds l (o + slotsO sl) M →
    wp l (endeds n sl) (fun sl' M => Holds l (o + slotsO sl') M) M := by
  intro n
  induction n with
  | zero => intro sl o M h; exact h
  | succ n ih =>
    intro sl o M h
    unfold endeds
    exact wp_call (wp_ended hl sl o M h) fun sl' M h => ih sl' o M h

theorem wp_hookEv (hl : l ≠ .any) {H : HookList} (e : HookEv) (h : HooksOk l H M) : wp l (e.prog H) (HooksOk l) M := by
  cases e with
  | run n w => exact wp_hookRun n w h
  | idle =>
    simp only [HookEv.prog, hooksCleanup]
    as p
    refine wp_useb h (by owna) ?_
    br
    · exact wp_call (wp_expire H.slots (one H.list) M h) fun sl M h => h
    · as n
      exact wp_call (wp_endeds hl n H.slots (one H.list) M h) fun sl M h => h

theorem wp_runHooks (hl : l ≠ .any) : ∀ (es : List HookEv) (H : HookList) (M : Mem), HooksOk l H M →
    wp l (runHooks es H) (HooksOk l) M := by
  intro es
  induction es with
  | nil => intro H M h; exact h
  | cons e es ih =>
    intro H M h
    unfold runHooks
    exact wp_call (wp_hookEv hl e h) fun H M h => ih H M h

theorem wp_hookInit : wp l hookInit (HooksOk l) blank := by
  have h := holds_blank (l := l)
  unfold hookInit
  al b
  refine h.re fun x => ?_
  simp only [add_ap, slotsO_replicate, cnt_nil]

theorem wp_hooksDestroy {H : HookList} (h : HooksOk l H M) : wp l (hooksDestroy H) (fun _ M => Holds l (cnt []) M) M := by
  unfold HooksOk at h
  unfold hooksDestroy
  us
  refine wp_each (fun sl M => Holds l (one H.list + slotsO sl) M) ?_ ?_ H.slots M h
  · intro a sl M h
    cases a with
    | none =>
      refine h.re fun x => ?_
      simp only [add_ap, slotsO_cons, slotBlocks, cnt_nil]; omega
    | some g =>
      apply wp_tail
      refine wp_hookFree (o := one H.list + slotsO sl) (h.re fun x => ?_) fun M h => h
      simp only [add_ap, slotsO_cons]; omega
  clear h
  intro M h
  have h : Holds l (one H.list) M := h.re fun x => by simp only [add_ap, slotsO_nil]; omega
  apply wp_tail
  fr
  exact h.re (by own)

end

/-- **C71**, the hooks. Whatever hooks are run, with as many arguments as they have, and whenever their programs end: no
    pointer to freed memory is followed and nothing is freed twice, no two hooks share a block, and nothing is alive or
    forgotten but the list and the hooks in it. Missing: empty slots that are followed (`C71_hooks_refuted`). -/
theorem C71_hooks_partial (es : List HookEv) (r : Res HookList) (h : Exec .clean (hooksServe es) blank r) :
    r ≠ .bad ∧ ∀ H M, r = .done H M → H.blocks.Nodup ∧ ∀ b, M b ≠ .gone ↔ b ∈ H.blocks := by
  have hw : wp .clean (hooksServe es) (HooksOk .clean) blank :=
    wp_call wp_hookInit fun H M h => wp_runHooks (by decide) es H M h
  rcases wp_sound h hw with rfl | ⟨H, M, rfl, hc⟩
  · exact ⟨fun e => (nomatch e), fun H M e => (nomatch e)⟩
  · refine ⟨fun e => (nomatch e), fun H' M' e => ?_⟩
    cases e
    have ec : ∀ b, H.blocks.count b = (one H.list + slotsO H.slots) b := by
      intro b
      show cnt (H.list :: H.slots.flatMap slotBlocks) b = _
      rw [cnt_cons]
      rfl
    refine ⟨List.nodup_iff_count.2 fun b => by rw [ec]; exact hc.le b, fun b => ?_⟩
    have h1 := (hc b).1
    have h2 := (hc b).2 rfl
    rw [← List.count_pos_iff, ec, h1]
    cases e : M b with
    | gone => simp
    | live => simp
    | lost => exact absurd e h2

/-- **C71**, the end of the hooks: `hook_destroy` gives all back. -/
theorem C71_hooks_stop_partial (es : List HookEv) (r : Res Unit) (h : Exec .clean (hooksLife es) blank r) :
    r ≠ .bad ∧ ∀ M, r = .done () M → M = blank := by
  have hw : wp .clean (hooksLife es) (fun _ M => Holds .clean (cnt []) M) blank :=
    wp_call wp_hookInit fun H M h => wp_call (wp_runHooks (by decide) es H M h) fun H M h => wp_hooksDestroy h
  rcases wp_sound h hw with rfl | ⟨_, M, rfl, hc⟩
  · exact ⟨fun e => (nomatch e), fun M e => (nomatch e)⟩
  · refine ⟨fun e => (nomatch e), fun M' e => ?_⟩
    cases e
    funext b
    have h1 := (hc b).1
    have h2 := (hc b).2 rfl
    cases hb : M b with
    | gone => rfl
    | live => simp [hb, cnt] at h1
    | lost => exact absurd hb h2

/-- Nine hooks, so that the list grows; the idle loop sees one end, and then frees one that has expired. -/
def hookEvs : List HookEv := List.replicate 8 (.run 2 false) ++ [.run 5 true, .idle, .idle]

/-- A run that meets the hypotheses. -/
theorem exHooks_run : ∃ H M, Exec .clean (hooksServe hookEvs) blank (.done H M) ∧ H.slots.length = 16 ∧
    (H.slots.filter (·.isSome)).length = 8 ∧ H.blocks.length = 1 + 7 * 6 + 9 := by
  obtain ⟨H, σ, h, hp⟩ := sees_exec (l := .clean) (p := hooksServe hookEvs)
    (as := [1, 1, 1] ++ [0] ++ [1, 0, 0, 0, 0, 0, 0, 0, 0])
    (P := fun H _ => H.slots.length == 16 && (H.slots.filter (·.isSome)).length == 8 && H.blocks.length == 1 + 7 * 6 + 9)
    (by decide +kernel)
  simp only [Bool.and_eq_true, beq_iff_eq] at hp
  exact ⟨H, _, h, hp.1.1, hp.1.2, hp.2⟩

/-- A run to the end. -/
theorem exHooks_life : Exec .clean (hooksLife hookEvs) blank (.done () blank) := by
  obtain ⟨_, σ, h, _⟩ := sees_exec (l := .clean) (p := hooksLife hookEvs)
    (as := [1, 1, 1] ++ [0] ++ [1, 0, 0, 0, 0, 0, 0, 0, 0]) (P := fun _ _ => true) (by decide +kernel)
  rw [(C71_hooks_stop_partial _ _ h).2 _ rfl] at h
  exact h

/-- **C71** is false for a program whose end is seen when its hook is not in the list as running (`Zdb.C39_null_refuted`
    has an execution in which it happens): the search follows the first empty slot. -/
theorem C71_hooks_refuted : Exec .any (hooksServe [.run 2 true, .idle]) blank .bad :=
  seesBad_exec (as := [1, 1, 0]) (by decide +kernel)

/-! ### growth -/

/-- How many hooks are in the list. -/
def occupied (sl : List (Option Hook)) : Nat := (sl.filter (·.isSome)).length

/-- An event while the program of some hook is still running: `childwait` is not 0 (libzdb/hook.c:203-217). -/
def HookEv.busy (e : HookEv) (H : HookList) : Prog HookList :=
  match e with
  | .run n w => hookRun H n w
  | .idle => do
    useb H.list
    let n ← ask
    let sl ← endeds n H.slots
    pure { H with slots := sl }

/-- Events one after the other. -/
def runBusy : List HookEv → HookList → Prog HookList
  | [], H => pure H
  | e :: es, H => do
    let H ← e.busy H
    runBusy es H

/-- The hooks that were run. -/
def started (es : List HookEv) : Nat := (es.filter fun e => match e with | .run _ _ => true | .idle => false).length

section
variable {l : Level} {M : Mem}

theorem wp_and {α : Type} {p : Prog α} : ∀ {M : Mem} {Q R : α → Mem → Prop}, wp l p Q M → wp l p R M →
    wp l p (fun a M => Q a M ∧ R a M) M := by
  induction p with
  | ret a => intro M Q R h1 h2; exact ⟨h1, h2⟩
  | alloc k ih => intro M Q R h1 h2; exact fun b hb => ih b (h1 b hb) (h2 b hb)
  | free q k ih =>
    intro M Q R h1 h2
    cases q with
    | none => exact ih (M := M) h1 h2
    | some b => exact ⟨h1.1, ih h1.2 h2.2⟩
  | use q k ih =>
    intro M Q R h1 h2
    cases q with
    | none => exact h1.elim
    | some b => exact ⟨h1.1, ih h1.2 h2.2⟩
  | askf k ih => intro M Q R h1 h2; exact fun a => ih a (M := M) (h1 a) (h2 a)
  | lose b k ih => intro M Q R h1 h2; exact fun hl hb => ih (h1 hl hb) (h2 hl hb)
  | hazard g k ih => intro M Q R h1 h2; exact fun hl => ih (M := M) (h1 hl) (h2 hl)
  | die => intro M Q R _ _; trivial

theorem place_occupied {g : Hook} : ∀ {sl sl' : List (Option Hook)}, place g sl = some sl' →
    occupied sl' = occupied sl + 1 := by
  intro sl
  induction sl with
  | nil => intro sl' h; simp [place] at h
  | cons a sl ih =>
    intro sl' h
    cases a with
    | none =>
      simp only [place, Option.some.injEq] at h
      subst h
      simp [occupied]
    | some f =>
      simp only [place, Option.map_eq_some_iff] at h
      obtain ⟨sl2, h1, rfl⟩ := h
      have := ih h1
      simp only [occupied, List.filter_cons, Option.isSome_some, if_true, List.length_cons] at this ⊢
      omega

theorem wp_appendHook_count {H : HookList} {g : Hook} {o : Own} (h : Holds l (one H.list + o) M) :
    wp l (appendHook H g) (fun H' _ => occupied H'.slots = occupied H.slots + 1) M := by
  unfold appendHook
  us
  cases e : place g H.slots with
  | some sl => exact place_occupied e
  | none =>
    refine wp_realloc h (by owna) fun b M h => ?_
    us
    show occupied _ = _
    simp [occupied, List.filter_append, List.filter_cons, List.filter_replicate]

theorem wp_hookRun_count {H : HookList} (n : Nat) (w : Bool) (h : HooksOk l H M) :
    wp l (hookRun H n w) (fun H' _ => occupied H'.slots = occupied H.slots + 1) M := by
  unfold HooksOk at h
  unfold hookRun
  al a
  al b
  us
  us
  refine wp_call (wp_strdups (n + 2) _ M h) ?_
  clear h
  intro bs M h
  us
  refine wp_appendHook_count (o := slotsO H.slots + one a + one b + cnt bs) (h.re fun x => ?_)
  simp only [add_ap]
  omega

theorem wp_ended_count (hl : l ≠ .any) : ∀ (sl : List (Option Hook)) (o : Own) (M : Mem), Holds l (o + slotsO sl) M →
    wp l (ended sl) (fun sl' _ => occupied sl' = occupied sl) M := by
  intro sl
  induction sl with
  | nil => intro o M h; exact rfl
  | cons a sl ih =>
    intro o M h
    cases a with
    | none => exact wp_hazard hl
    | some g =>
      unfold ended
      refine wp_useb h ?_ ?_
      · simp only [add_ap, slotsO_cons, hookO, one_self]; omega
      as same
      br
      · show occupied _ = _
        simp [occupied]
      · refine wp_call (ih (o + cnt (slotBlocks (some g))) M (h.re fun x => ?_)) fun sl' M h => ?_
        · simp only [add_ap, slotsO_cons]; omega
        · show occupied _ = _
          simpa [occupied] using h

theorem wp_endeds_count (hl : l ≠ .any) : ∀ (n : Nat) (sl : List (Option Hook)) (o : Own) (M : Mem),
    Holds l (o + slotsO sl) M → wp l (endeds n sl) (fun sl' _ => occupied sl' = occupied sl) M := by
  intro n
  induction n with
  | zero => intro sl o M h; exact rfl
  | succ n ih =>
    intro sl o M h
    unfold endeds
    refine wp_call (wp_and (wp_ended hl sl o M h) (wp_ended_count hl sl o M h)) fun sl' M h => ?_
    exact wp_mono (ih sl' o M h.1) fun sl'' M e => e.trans h.2

theorem wp_runBusy (hl : l ≠ .any) : ∀ (es : List HookEv) (H : HookList) (M : Mem), HooksOk l H M →
    wp l (runBusy es H) (fun H' _ => occupied H'.slots = occupied H.slots + started es) M := by
  intro es
  induction es with
  | nil => intro H M h; exact rfl
  | cons e es ih =>
    intro H M h
    unfold runBusy
    cases e with
    | run n w =>
      refine wp_call (wp_and (wp_hookRun n w h) (wp_hookRun_count n w h)) fun H' M h => ?_
      refine wp_mono (ih H' M h.1) fun H'' M e => ?_
      rw [e, h.2]
      simp only [started, List.filter_cons, if_true, List.length_cons]
      omega
    | idle =>
      have hi : wp l (HookEv.busy .idle H) (fun H' M => HooksOk l H' M ∧ occupied H'.slots = occupied H.slots) M := by
        simp only [HookEv.busy]
        refine wp_useb h (by owna) ?_
        as n
        refine wp_call (wp_and (wp_endeds hl n H.slots (one H.list) M h) (wp_endeds_count hl n H.slots (one H.list) M h))
          fun sl M h => ?_
        exact ⟨h.1, h.2⟩
      refine wp_call hi fun H' M h => ?_
      refine wp_mono (ih H' M h.1) fun H'' M e => ?_
      rw [e, h.2]
      simp [started]

end

theorem Exec.follow {α β : Type} {l : Level} {f g : α → Prog β} (h : ∀ a M r, Exec l (f a) M r → Exec l (g a) M r) :
    ∀ (p : Prog α) (M : Mem) (r : Res β), Exec l (p >>= f) M r → Exec l (p >>= g) M r := by
  intro p
  induction p with
  | ret a => intro M r e; exact h a M r e
  | alloc k ih => intro M r e; cases e with | alloc _ _ b _ hb e => exact .alloc _ _ b _ hb (ih b _ _ e)
  | free q k ih =>
    intro M r e
    cases e with
    | freed b _ _ _ hb e => exact .freed b _ _ _ hb (ih _ _ e)
    | freeNull _ _ _ e => exact .freeNull _ _ _ (ih _ _ e)
    | freeBad b _ _ hb => exact .freeBad b _ _ hb
  | use q k ih =>
    intro M r e
    cases e with
    | used b _ _ _ hb e => exact .used b _ _ _ hb (ih _ _ e)
    | useNull => exact .useNull _ _
    | useBad b _ _ hb => exact .useBad b _ _ hb
  | askf k ih => intro M r e; cases e with | asked _ _ a _ e => exact .asked _ _ a _ (ih a _ _ e)
  | lose b k ih => intro M r e; cases e with | lost _ _ _ _ hl hb e => exact .lost _ _ _ _ hl hb (ih _ _ e)
  | hazard g k ih => intro M r e; cases e with | hazard _ _ _ _ hl e => exact .hazard _ _ _ _ hl (ih _ _ e)
  | die => intro M r e; cases e; exact .died _

/-- Busy runs are runs. -/
theorem runBusy_runHooks {l : Level} : ∀ (es : List HookEv) (H : HookList) (M : Mem) (r : Res HookList),
    Exec l (runBusy es H) M r → Exec l (runHooks es H) M r := by
  intro es
  induction es with
  | nil => intro H M r h; exact h
  | cons e es ih =>
    intro H M r h
    unfold runBusy at h
    unfold runHooks
    have h := Exec.follow (g := runHooks es) (fun H M r => ih H M r) _ _ _ h
    cases e with
    | run n w => exact h
    | idle => exact .asked _ _ 1 _ h

/-- **C71** is false for the hooks in the amount of memory: as long as the program of one hook runs, whatever ends and
    however much time passes, every hook that was ever run is kept with its blocks. -/
theorem C71_hooks_growth_refuted (es : List HookEv) (H : HookList) (M : Mem)
    (h : Exec .clean (do let H ← hookInit; runBusy es H) blank (.done H M)) : occupied H.slots = started es := by
  have hw : wp .clean (do let H ← hookInit; runBusy es H) (fun H _ => occupied H.slots = started es) blank := by
    refine wp_call (wp_and (wp_hookInit (l := .clean)) (R := fun H _ => H.slots = List.replicate 8 none) ?_) fun H M h => ?_
    · intro b _
      exact rfl
    · refine wp_mono (wp_runBusy (by decide) es H M h.1) fun H' M e => ?_
      rw [e, h.2]
      simp [occupied]
  rcases wp_sound h hw with h | ⟨H', M', h, hc⟩
  · cases h
  · cases h
    exact hc

/-- These runs are runs of the hooks. -/
theorem C71_hooks_growth_real (es : List HookEv) (r : Res HookList)
    (h : Exec .clean (do let H ← hookInit; runBusy es H) blank r) :
    Exec .clean (do let H ← hookInit; runHooks es H) blank r :=
  Exec.follow (fun H M r h => runBusy_runHooks es H M r h) _ _ _ h

/-- Such a run: one program that does not end, nine that do. -/
theorem exHooks_busy : ∃ H M, Exec .clean (do let H ← hookInit; runBusy (.run 2 false :: List.replicate 9 (.run 2 true) ++ [.idle]) H)
    blank (.done H M) ∧ occupied H.slots = 10 := by
  obtain ⟨H, σ, h, hp⟩ := sees_exec (l := .clean)
    (p := do let H ← hookInit; runBusy (.run 2 false :: List.replicate 9 (.run 2 true) ++ [.idle]) H)
    (as := [0]) (P := fun H _ => occupied H.slots == 10) (by decide +kernel)
  exact ⟨H, _, h, by simpa using hp⟩

end Zdb.Heap
