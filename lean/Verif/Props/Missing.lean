/-
C75: a data file that was taken away is brought back by the hook.
-/
import Verif.Lemmas.Missing
import Verif.Lemmas.ReplyEq
import Verif.Props.Backup
namespace Zdb.Missing

open Zdb.Backup (Waited Call Copies Faithful UserCopies SeqCopies nsTrace)

theorem fresh_right : Right (freshStore .user) (fun _ => none) .none ∧ Right (freshStore .seq) (fun _ => none) .none := by
  constructor <;>
  exact ⟨⟨fun i hi => by simp [freshStore] at hi, fun i _ => ⟨rfl, rfl⟩⟩, fun i hi => by simp [Backup.Copies.none] at hi⟩

theorem UserTaken.kept {cfg : Option Mode} {u : Nat} {tr : List (Event × Reply)} {br : Branches} {s : Store} {dir : Dir}
    {b : Copies} {m : Nat → Prop} (h : UserTaken cfg u tr br s dir b m) (hsound : ∀ x ∈ kept tr, Backup.Sound x) :
    UserCopies cfg u (kept tr) br s b m ∧ Right s dir b ∧ InStep s := by
  obtain ⟨br0, br1, s0, h0, h1, h2⟩ := h.run
  have h1' := h1
  have hf := loadNs_dirty h1
  rw [freshNs_eq] at h1
  injection h1 with e1 e2
  have hm : cfg.getD .user = .user := by rcases h.hcfg with h | h <;> rw [h] <;> rfl
  rw [hm] at e2
  have hlen : (Missing.kept tr).length = tr.length := List.length_map ..
  have hl := h.len
  obtain ⟨k1, k2, k3⟩ := h2.kept (uGood h.hcfg u)
    ⟨⟨_, by subst e1; subst e2; exact freshStore_uinv br0 u h0⟩, hf.1,
      ⟨fun i hi => by subst e2; simp [freshStore] at hi, fun i hi => by subst e2; simp [freshStore] at hi⟩, by
        unfold maxEvents at hl
        subst e2
        constructor
        · simp [freshStore]; omega
        · simp [freshStore, totalData]; omega, h.ev, hsound⟩ (by subst e2; exact fresh_right.1)
  exact ⟨⟨h.hcfg, ⟨br0, br1, s0, h0, h1', k1⟩, h.ev, by rw [hlen]; exact hl⟩, k2, ((uGood h.hcfg u).step k3).1⟩

theorem SeqTaken.kept {cfg : Option Mode} {u : Nat} {tr : List (Event × Reply)} {br : Branches} {s : Store} {dir : Dir}
    {b : Copies} {m : Nat → Prop} (h : SeqTaken cfg u tr br s dir b m) (hsound : ∀ x ∈ kept tr, Backup.Sound x) :
    SeqCopies cfg u (kept tr) br s b m ∧ Right s dir b ∧ InStep s := by
  obtain ⟨br0, s0, h0, h2⟩ := h.run
  obtain ⟨hcfg, e⟩ := h0.fresh
  have hf : (freshStore .seq).DW ∧ ∀ i, dirtyGet (freshStore .seq).dirty i = false :=
    loadNs_dirty (freshNs_eq (some .seq) br0 u)
  have hlen : (Missing.kept tr).length = tr.length := List.length_map ..
  have hl := h.len
  obtain ⟨k1, k2, k3⟩ := h2.kept (sGood hcfg u)
    ⟨⟨[[]], by subst e; exact freshStore_sinv, h.near⟩, by subst e; exact hf.1,
      ⟨fun i hi => by subst e; simp [freshStore] at hi, fun i hi => by subst e; simp [freshStore] at hi⟩, by
        unfold maxEvents at hl
        subst e
        constructor
        · simp [freshStore]; omega
        · simp [freshStore, totalData]; omega, h.ev, hsound⟩ (by subst e; exact fresh_right.2)
  exact ⟨⟨⟨br0, s0, h0, k1⟩, h.ev, h.near, by rw [hlen]; exact hl⟩, k2, ((sGood hcfg u).step k3).1⟩

/-- C75, user-key mode.  Closed data files are taken away at any time once they were copied, again and again, with a
    script that brings back the copy of the file it is asked for: every reply is the one of a dictionary, and the
    index, the files written and the copies are those of an execution with the same replies in which nothing is taken
    away.  Missing: a script that fails (`C75_read_user_partial`, `C75_set_refuted`), one that leaves part of a file
    (`C75_halfway_refuted`), the current data file (`C75_current_refuted`), failing writes of the index (`EvOK`). -/
theorem C75_user_partial {cfg : Option Mode} {u : Nat} {tr : List (Event × Reply)} {br : Branches} {s : Store} {dir : Dir}
    {b : Copies} {m : Nat → Prop} (h : UserTaken cfg u tr br s dir b m) (hsound : ∀ x ∈ kept tr, Backup.Sound x) :
    UserCopies cfg u (kept tr) br s b m ∧ Agrees [] (nsTrace (kept tr)) :=
  ⟨(h.kept hsound).1, (Backup.C74_user_partial (h.kept hsound).1 hsound).2⟩

/-- C75, sequential mode. -/
theorem C75_seq_partial {cfg : Option Mode} {u : Nat} {tr : List (Event × Reply)} {br : Branches} {s : Store} {dir : Dir}
    {b : Copies} {m : Nat → Prop} (h : SeqTaken cfg u tr br s dir b m) (hsound : ∀ x ∈ kept tr, Backup.Sound x) :
    SeqCopies cfg u (kept tr) br s b m ∧ SeqAgrees [] (nsTrace (kept tr)) :=
  ⟨(h.kept hsound).1, (Backup.C74_seq_partial (h.kept hsound).1 hsound).2⟩

/-- C75, a script that fails: in any state reached, a request that reads is answered as if nothing were missing, or
    with the error of this command, and changes nothing; what MGET tells about the other keys is right.  The script
    may bring back some of the files it is asked for.  Missing: SET (`C75_set_refuted`). -/
theorem C75_read_user_partial {cfg : Option Mode} {u : Nat} {tr : List (Event × Reply)} {br : Branches} {s : Store} {dir : Dir}
    {b : Copies} {m : Nat → Prop} (h : UserTaken cfg u tr br s dir b m) (hsound : ∀ x ∈ kept tr, Backup.Sound x)
    (sc : Script) (hsc : Honest b sc) (w : Waited) (c : Ctx) (d : DsCmd) (hd : d.changes = false) (argv : List Bytes) :
    ∃ r dir', command sc w c br s dir d argv = (((br, s, r), []), dir') ∧ Excused d (dsCommand c br s d argv).2.2 r := by
  obtain ⟨-, h1, h2⟩ := h.kept hsound
  obtain ⟨r, dir', k1, k2, -⟩ := read_keep h1.toHere h2 hsc w c br d hd argv
  exact ⟨r, dir', k1, k2⟩

theorem C75_read_seq_partial {cfg : Option Mode} {u : Nat} {tr : List (Event × Reply)} {br : Branches} {s : Store} {dir : Dir}
    {b : Copies} {m : Nat → Prop} (h : SeqTaken cfg u tr br s dir b m) (hsound : ∀ x ∈ kept tr, Backup.Sound x)
    (sc : Script) (hsc : Honest b sc) (w : Waited) (c : Ctx) (d : DsCmd) (hd : d.changes = false) (argv : List Bytes) :
    ∃ r dir', command sc w c br s dir d argv = (((br, s, r), []), dir') ∧ Excused d (dsCommand c br s d argv).2.2 r := by
  obtain ⟨-, h1, h2⟩ := h.kept hsound
  obtain ⟨r, dir', k1, k2, -⟩ := read_keep h1.toHere h2 hsc w c br d hd argv
  exact ⟨r, dir', k1, k2⟩

/-! ### where the claim fails, and examples -/

/-- A state of an execution that can be computed. -/
structure Shown where
  br : Branches
  s : Store
  dir : Dir
  b : Copies
  missed : List Nat
  out : List (Event × Reply)

/-- What is done: a request, a file is copied or taken away, the server is stopped and started. -/
inductive Act where
  | req (y : Ctx × DsCmd × List Bytes × Waited)
  | late (i : Nat)
  | take (i : Nat)
  | restart

def Shown.next (cfg : Option Mode) (u : Nat) (x : Shown) : Act → Option Shown
  | .req y =>
    let z := command (bring x.b) y.2.2.2 y.1 x.br x.s x.dir y.2.1 y.2.2.1
    some { br := z.1.1.1, s := z.1.1.2.1, dir := z.2, b := z.1.2.foldl (Copies.hear y.2.2.2 []) x.b
           missed := if z.1.2 ≠ [] ∧ ¬ y.2.2.2.done then x.s.indexid :: x.missed else x.missed
           out := x.out ++ [(.ev (.cmd y.1 y.2.1 y.2.2.1 y.2.2.2 []), z.1.1.2.2)] }
  | .late i => some { x with b := x.b.late (onDisk x.s x.dir) i, out := x.out ++ [(.ev (.late i), .nil)] }
  | .take i =>
    if i < x.s.dataid ∧ i ∉ x.b.todo then
      some { x with dir := fun j => if j = i then none else x.dir j, out := x.out ++ [(.take i, .nil)] }
    else none
  | .restart =>
    match reload cfg x.br u x.s x.dir with
    | .ok br s => some { x with br := br, s := s, b := (Backup.close x.s).foldl (Copies.hear (.exited 0) []) x.b
                                out := x.out ++ [(.ev .restart, .ok)] }
    | _ => none

theorem Run.snoc {cfg : Option Mode} {ok : Store → Store → NsEvent → Prop} {u : Nat} {br br' br'' : Branches} {s s' s'' : Store}
    {dir dir' dir'' : Dir} {b b' b'' : Copies} {m m' m'' : Nat → Prop} {tr : List (Event × Reply)} {x : Event × Reply}
    (h : Run cfg ok u br s dir b m tr br' s' dir' b' m') (hx : Run cfg ok u br' s' dir' b' m' [x] br'' s'' dir'' b'' m'') :
    Run cfg ok u br s dir b m (tr ++ [x]) br'' s'' dir'' b'' m'' := by
  induction h with
  | nil => exact hx
  | cmd c d argv w part hu h1 hc _ ih => exact .cmd c d argv w part hu h1 hc (ih hx)
  | foreign h1 hc _ ih => exact .foreign h1 hc (ih hx)
  | late i hc _ ih => exact .late i hc (ih hx)
  | restart h1 hc _ ih => exact .restart h1 hc (ih hx)
  | take i hi ht hc _ ih => exact .take i hi ht hc (ih hx)

theorem next_run {cfg : Option Mode} {u : Nat} {x y : Shown} {a : Act} (hu : ∀ r, a = .req r → r.1.u = u)
    (h : x.next cfg u a = some y) :
    ∃ e, y.out = x.out ++ [e] ∧
      Run cfg AnyEv u x.br x.s x.dir x.b (· ∈ x.missed) [e] y.br y.s y.dir y.b (· ∈ y.missed) := by
  cases a with
  | req r =>
    simp only [Shown.next, Option.some.injEq] at h
    subst h
    refine ⟨_, rfl, ?_⟩
    have e : (fun i => i ∈ (if (command (bring x.b) r.2.2.2 r.1 x.br x.s x.dir r.2.1 r.2.2.1).1.2 ≠ [] ∧ ¬ r.2.2.2.done
        then x.s.indexid :: x.missed else x.missed)) = (fun i => i ∈ x.missed ∨
        ((command (bring x.b) r.2.2.2 r.1 x.br x.s x.dir r.2.1 r.2.2.1).1.2 ≠ [] ∧ ¬ r.2.2.2.done ∧ i = x.s.indexid)) := by
      funext i
      apply propext
      by_cases h0 : (command (bring x.b) r.2.2.2 r.1 x.br x.s x.dir r.2.1 r.2.2.1).1.2 ≠ [] ∧ ¬ r.2.2.2.done
      · rw [if_pos h0, List.mem_cons]
        constructor
        · rintro (h | h)
          · exact Or.inr ⟨h0.1, h0.2, h⟩
          · exact Or.inl h
        · rintro (h | h)
          · exact Or.inr h
          · exact Or.inl h.2.2
      · rw [if_neg h0]
        constructor
        · exact Or.inl
        · rintro (h | h)
          · exact h
          · exact absurd ⟨h.1, h.2.1⟩ h0
    dsimp only
    rw [e]
    exact Run.cmd r.1 r.2.1 r.2.2.1 r.2.2.2 [] (hu r rfl) rfl trivial (Run.nil ..)
  | late i =>
    simp only [Shown.next, Option.some.injEq] at h
    subst h
    exact ⟨_, rfl, Run.late i trivial (Run.nil ..)⟩
  | take i =>
    simp only [Shown.next] at h
    split at h
    · rename_i hi
      injection h with h
      subst h
      exact ⟨_, rfl, Run.take i hi.1 hi.2 trivial (Run.nil ..)⟩
    · cases h
  | restart =>
    simp only [Shown.next] at h
    split at h
    · rename_i h1
      injection h with h
      subst h
      exact ⟨_, rfl, Run.restart h1 trivial (Run.nil ..)⟩
    · cases h

/-- What is done, one after the other. -/
def showActs (cfg : Option Mode) (u : Nat) : Shown → List Act → Option Shown
  | x, [] => some x
  | x, a :: l => (x.next cfg u a).bind (showActs cfg u · l)

theorem showActs_run {cfg : Option Mode} {u : Nat} (l : List Act) (hu : ∀ a ∈ l, ∀ r, a = .req r → r.1.u = u) :
    ∀ {x y : Shown}, showActs cfg u x l = some y → ∀ {br s dir b m},
      Run cfg AnyEv u br s dir b m x.out x.br x.s x.dir x.b (· ∈ x.missed) →
      Run cfg AnyEv u br s dir b m y.out y.br y.s y.dir y.b (· ∈ y.missed) := by
  induction l with
  | nil =>
    intro x y h br s dir b m hx
    simp only [showActs, Option.some.injEq] at h
    subst h; exact hx
  | cons a l ih =>
    intro x y h br s dir b m hx
    simp only [showActs] at h
    cases hn : x.next cfg u a with
    | none => rw [hn] at h; cases h
    | some z =>
      rw [hn] at h
      obtain ⟨e, e1, e2⟩ := next_run (hu a (List.mem_cons_self ..)) hn
      refine ih (fun a ha => hu a (List.mem_cons_of_mem _ ha)) h ?_
      rw [e1]
      exact hx.snoc e2

/-- A new user-key namespace. -/
def start : Shown := ⟨fun _ => [], freshStore .user, fun _ => none, .none, [], []⟩

theorem showActs_user {l : List Act} (hu : ∀ a ∈ l, ∀ r, a = .req r → r.1.u = 7) {y : Shown}
    (h : showActs none 7 start l = some y) (hev : ∀ x ∈ kept y.out, EvOK x.1.ns) (hlen : y.out.length ≤ maxEvents) :
    UserTaken none 7 y.out y.br y.s y.dir y.b (· ∈ y.missed) where
  hcfg := Or.inl rfl
  run := ⟨fun _ => [], fun _ => [], freshStore .user, fun _ => rfl, freshNs_eq .., by
    refine showActs_run l hu h ?_
    have e : (fun i : Nat => i ∈ ([] : List Nat)) = (fun _ => False) := by funext i; simp
    show Run none AnyEv 7 _ _ _ _ _ [] _ _ _ _ (fun i : Nat => i ∈ ([] : List Nat))
    rw [e]
    exact Run.nil ..⟩
  ev := hev
  len := hlen

/-- Requests of the examples. -/
def exGet : Act := .req (exCtx, .get, [str "GET", str "a"], .exited 0)
def exSame : Act := .req (exCtx, .set, [str "SET", str "a", str "one"], .exited 0)

/-- A key is written, files are changed, the closed file is copied and taken away; the key is read; the file is taken
    away again, the server is restarted, and the same value is set. -/
def exActs : List Act :=
  [.req (Backup.exSet "one"), .req (Backup.exJump (.exited 0)), .late 0, .take 0, exGet, .take 0, .restart, exSame]

/-- The same until the file was taken away. -/
def exShort : List Act := [.req (Backup.exSet "one"), .req (Backup.exJump (.exited 0)), .late 0, .take 0]

/-- The event of what is done. -/
def Act.event : Act → Event
  | .req y => .ev (.cmd y.1 y.2.1 y.2.2.1 y.2.2.2 [])
  | .late i => .ev (.late i)
  | .take i => .take i
  | .restart => .ev .restart

theorem next_event {cfg : Option Mode} {u : Nat} {x y : Shown} {a : Act} (h : x.next cfg u a = some y) :
    y.out.map (·.1) = x.out.map (·.1) ++ [a.event] := by
  cases a with
  | req r =>
    simp only [Shown.next, Option.some.injEq] at h
    subst h
    simp only [List.map_append, List.map_cons, List.map_nil]; rfl
  | late i =>
    simp only [Shown.next, Option.some.injEq] at h
    subst h
    simp only [List.map_append, List.map_cons, List.map_nil]; rfl
  | take i =>
    simp only [Shown.next] at h
    split at h
    · injection h with h
      subst h
      simp only [List.map_append, List.map_cons, List.map_nil]; rfl
    · cases h
  | restart =>
    simp only [Shown.next] at h
    split at h
    · injection h with h
      subst h
      simp only [List.map_append, List.map_cons, List.map_nil]; rfl
    · cases h

theorem showActs_events {cfg : Option Mode} {u : Nat} (l : List Act) :
    ∀ {x y : Shown}, showActs cfg u x l = some y → y.out.map (·.1) = x.out.map (·.1) ++ l.map Act.event := by
  induction l with
  | nil =>
    intro x y h
    simp only [showActs, Option.some.injEq] at h
    subst h; simp
  | cons a l ih =>
    intro x y h
    simp only [showActs] at h
    cases hn : x.next cfg u a with
    | none => rw [hn] at h; cases h
    | some z =>
      rw [hn] at h
      rw [ih h, next_event hn]
      simp

/-- Requests as they should be. -/
def Act.fine (u : Nat) : Act → Prop
  | .req y => y.1.u = u ∧ CtxOK y.1 ∧ ArgsOK y.2.2.1 ∧ y.2.1 ≠ .index ∧ ∃ code, y.2.2.2 = .exited code
  | _ => True

/-- What is done with requests as they should be meets the hypotheses. -/
theorem showActs_taken {l : List Act} (hl : ∀ a ∈ l, a.fine 7) {y : Shown} (h : showActs none 7 start l = some y)
    (hlen : l.length ≤ maxEvents) :
    UserTaken none 7 y.out y.br y.s y.dir y.b (· ∈ y.missed) ∧ ∀ x ∈ kept y.out, Backup.Sound x := by
  have he := showActs_events l h
  have he' : y.out.map (·.1) = l.map Act.event := he
  have hmem : ∀ x ∈ kept y.out, ∃ a ∈ l, x.1 = a.event.kept := by
    intro x hx
    obtain ⟨z, hz, rfl⟩ := List.mem_map.1 hx
    have : z.1 ∈ l.map Act.event := by rw [← he']; exact List.mem_map_of_mem hz
    obtain ⟨a, ha, e⟩ := List.mem_map.1 this
    exact ⟨a, ha, by rw [e]⟩
  refine ⟨showActs_user (fun a ha r hr => ?_) h (fun x hx => ?_) ?_, fun x hx => ?_⟩
  · have := hl a ha
    rw [hr] at this
    exact this.1
  · obtain ⟨a, ha, e⟩ := hmem x hx
    rw [e]
    have := hl a ha
    cases a with
    | req r => exact ⟨this.2.1, this.2.2.1⟩
    | _ => trivial
  · have := congrArg List.length he'
    rw [List.length_map, List.length_map] at this
    omega
  · obtain ⟨a, ha, e⟩ := hmem x hx
    obtain ⟨x1, x2⟩ := x
    dsimp only at e
    subst e
    have := hl a ha
    cases a with
    | req r =>
      refine ⟨fun hr => this.2.2.2.1 ?_, this.2.2.2.2⟩
      generalize hd : r.2.1 = d at hr
      cases d <;> first | rfl | exact hr.elim
    | _ => trivial

theorem exFine : ∀ a ∈ exActs, a.fine 7 := by
  have hargs : ∀ n rest, n ≠ [] → (∀ b ∈ n :: rest, b.length ≤ 2 ^ 23) → ArgsOK (n :: rest) := fun n rest h1 h2 =>
    ⟨⟨n, rest, rfl, h1⟩, h2⟩
  intro a ha
  simp only [exActs, List.mem_cons, List.not_mem_nil, or_false] at ha
  rcases ha with rfl | rfl | rfl | rfl | rfl | rfl | rfl | rfl <;>
    first
    | trivial
    | exact ⟨rfl, exCtx_ok, hargs _ _ (by decide) (by decide), by decide, _, rfl⟩

/-- The hypotheses are met: the file was away twice, and the replies are right. -/
theorem exActs_run : ∃ y, showActs none 7 start exActs = some y ∧
    UserTaken none 7 y.out y.br y.s y.dir y.b (· ∈ y.missed) ∧ (∀ x ∈ kept y.out, Backup.Sound x) ∧
    y.out.map (·.2) = [.bulk (str "a"), .ok, .nil, .nil, .bulk (str "one"), .nil, .ok, .nil] ∧
    (y.dir 0).isSome = true := by
  have h1 : (showActs none 7 start exActs).map (fun y => (y.out.map (·.2), (y.dir 0).isSome)) =
      some ([.bulk (str "a"), .ok, .nil, .nil, .bulk (str "one"), .nil, .ok, .nil], true) := by decide +kernel
  cases hy : showActs none 7 start exActs with
  | none => rw [hy] at h1; cases h1
  | some y =>
    rw [hy] at h1
    have h2 := Option.some.inj h1
    obtain ⟨k1, k2⟩ := showActs_taken exFine hy (by decide)
    exact ⟨y, rfl, k1, k2, congrArg Prod.fst h2, congrArg Prod.snd h2⟩

/-- A script that always fails. -/
def fails : Script := fun _ => ⟨.exited 1, none⟩

theorem fails_honest (b : Copies) : Honest b fails := fun _ => Or.inr ⟨1, by decide, rfl⟩

/-- The reply to one more request in the state with file 0 away. -/
def oneMore (sc : Script) (d : DsCmd) (argv : List Bytes) : Option (Reply × List Nat) :=
  (showActs none 7 start exShort).map fun y =>
    let z := command sc (.exited 0) exCtx y.br y.s y.dir d argv
    (z.1.1.2.2, z.1.1.2.1.dfiles.map List.length)

/-- The errors, when the script fails. -/
theorem oneMore_fails :
    oneMore fails .get [str "GET", str "a"] = some (.err "Internal Error", [50, 28]) ∧
    oneMore fails .mget [str "MGET", str "b", str "a"] = some (.arr [.nil, .err "Internal Error"], [50, 28]) ∧
    oneMore fails .check [str "CHECK", str "a"] = some (.int (-1), [50, 28]) ∧
    oneMore fails .data [str "DATA", str "RAW", str "0", str "28"] = some (.err "Invalid Request", [50, 28]) ∧
    oneMore fails .length [str "LENGTH", str "a"] = some (.int 3, [50, 28]) := by decide +kernel

/-- SET of the value that is there already is told apart from a change by the data file alone: when it cannot be had,
    the value is written again and the reply is the key instead of nil. -/
theorem C75_set_refuted :
    oneMore fails .set [str "SET", str "a", str "one"] = some (.bulk (str "a"), [50, 50]) ∧
    (showActs none 7 start exShort).map (fun y => oneMore (bring y.b) .set [str "SET", str "a", str "one"]) =
      some (some (.nil, [50, 28])) := by decide +kernel

/-- A script that is stopped after having copied 30 bytes, and says so. -/
def halfway (b : Copies) : Script := fun i => ⟨.exited 1, (b.dat i).map (·.take 30)⟩

/-- A script that fails halfway leaves a file which is there: the script is not asked again, though it would bring the
    right one, and the key stays lost. -/
theorem C75_halfway_refuted : (showActs none 7 start exShort).map (fun y =>
      let z := command (halfway y.b) (.exited 0) exCtx y.br y.s y.dir .get [str "GET", str "a"]
      let z' := command (bring y.b) (.exited 0) exCtx z.1.1.1 z.1.1.2.1 z.2 .get [str "GET", str "a"]
      (z.1.1.2.2, z'.1.1.2.2)) = some (.err "Internal Error", .err "Internal Error") := by decide +kernel

/-- The script is not asked for the file that is to be the current one: it has been copied when the server stopped, and
    taken away; at the start a new file is made in its place (`data_initialize`, libzdb/data.c:245-276), and the key
    is lost. -/
theorem C75_current_refuted : (showActs none 7 start [.req (Backup.exSet "one")]).map (fun y =>
      let b := (Backup.close y.s).foldl (Copies.hear (.exited 0) []) y.b
      match loadNs none (brClean y.br 7) 7 y.s.ifiles [] with
      | .ok br s => (b.dat 0 == y.s.dfiles[0]?,
          some (command (bring b) (.exited 0) exCtx br s (fun _ => none) .get [str "GET", str "a"]).1.1.2.2)
      | _ => (false, none)) = some (true, some (.err "Internal Error")) := by decide +kernel

end Zdb.Missing
