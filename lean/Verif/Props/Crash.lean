/-
The process dies during a command (user-key mode): C35, C36, C50.
-/
import Verif.Lemmas.Crash
import Verif.Props.UserMap
namespace Zdb

/-- Commands that read one key. -/
def DsCmd.readsKey : DsCmd → Bool
  | .get | .exists | .check | .length | .keytime => true
  | _ => false

/-- They only depend on the value of the key. -/
theorem read_congr {c : Ctx} {br br1 : Branches} {s s1 : Store} {G G1 : Log} (h : UInv br c.u s G)
    (h1 : UInv br1 c.u s1 G1) (d : DsCmd) (hd : d.readsKey = true) (name k : Bytes) (hn : name ≠ [])
    (hk : (absKV G1).get k = (absKV G).get k) :
    (dsCommand c br1 s1 d [name, k]).2.2 = (dsCommand c br s d [name, k]).2.2 := by
  cases d with
  | get => simp only [dsCommand, cmdGet_spec h name k hn, cmdGet_spec h1 name k hn, specRead, hk]
  | «exists» => simp only [dsCommand, cmdExists_spec h name k hn, cmdExists_spec h1 name k hn, specRead, hk]
  | check => simp only [dsCommand, cmdCheck_spec h name k hn, cmdCheck_spec h1 name k hn, specRead, hk]
  | length => simp only [dsCommand, cmdLength_spec h name k hn, cmdLength_spec h1 name k hn, specRead, hk]
  | keytime => simp only [dsCommand, cmdKeytime_spec h name k hn, cmdKeytime_spec h1 name k hn, specRead, hk]
  | _ => simp [DsCmd.readsKey] at hd

/-- GET of a valid key of a namespace that is not frozen. -/
theorem get_reply {c : Ctx} {br : Branches} {s : Store} {G : Log} (h : UInv br c.u s G) (name k : Bytes)
    (hn : name ≠ []) (hk : k ≠ []) (hl : k.length ≤ 255) (hf : c.conf.lock ≠ .frozen) :
    cmdGet c br s [name, k] = getReply (((absKV G).get k).map (·.payload)) := by
  rw [cmdGet_spec h name k hn, specRead, if_neg hk, if_neg (by omega), if_neg hf]
  cases (absKV G).get k <;> rfl

/-- C35, user-key mode, as far as it is true.  In every reachable state (which may itself have seen the process die before), if
    the process dies at any point of a SET that does not leave part of an index record behind, the next
    start succeeds; every other key answers GET, EXISTS, LENGTH, CHECK and KEYTIME as before; the key of the
    SET reads its old payload, the new one, or nothing.  Missing: "nothing" when there was an old
    payload is a loss (`C35_refuted`), and parts of index records stop the next start
    (`C35_restart_refuted`). -/
theorem C35_partial {cfg : Option Mode} {u : Nat} {tr : List (LifeEv × Reply)} {br br0 : Branches} {s : Store}
    (h : LifeRun cfg u tr br s) (hlen : tr.length < maxEvents) (c : Ctx) (hu : c.u = u)
    (n k v : Bytes) (rest : List Bytes) (p : Death) (hok : DiedOK c (n :: k :: v :: rest) p)
    (hbr : ∀ h, (br0 h).filter (fun e => e.ns == u) = []) :
    ∃ br1 s1, loadNs cfg br0 u (deathFiles c br s .set (n :: k :: v :: rest) p).1
        (deathFiles c br s .set (n :: k :: v :: rest) p).2 = .ok br1 s1 ∧
      (∀ (c' : Ctx) (d : DsCmd) (name k' : Bytes), c'.u = u → d.readsKey = true → name ≠ [] → k' ≠ k →
        (dsCommand c' br1 s1 d [name, k']).2.2 = (dsCommand c' br s d [name, k']).2.2) ∧
      (∀ (c' : Ctx) (name : Bytes), c'.u = u → name ≠ [] → k ≠ [] → k.length ≤ 255 → c'.conf.lock ≠ .frozen →
        cmdGet c' br1 s1 [name, k] = cmdGet c' br s [name, k] ∨
        cmdGet c' br1 s1 [name, k] = .bulk v ∨ cmdGet c' br1 s1 [name, k] = .nil) := by
  subst hu
  obtain ⟨G, i1, i2, i3, -⟩ := h.inv
  have hroom : Room s.ifiles.length (totalData s) 1 := by
    unfold maxEvents at hlen
    exact ⟨by omega, by omega⟩
  obtain ⟨G1, j1, j2⟩ := i1.died (d := .set) hok hroom
  have hlen1 : G1.length < 2 ^ 32 := by
    obtain ⟨b, t, k1, k2, -⟩ := j1
    have := k1.irep.length
    rw [k2] at this
    have := (deathFiles_grows c br s .set (n :: k :: v :: rest) p (2 ^ 23) hok.args.size).1
    have := hroom.1
    unfold maxEvents at hlen
    omega
  obtain ⟨br1, s1, k1, k2, -⟩ := j1.load (br0 := br0) cfg h.hcfg hlen1 hbr
  refine ⟨br1, s1, k1, ?_, ?_⟩
  · intro c' d name k' hu hd hn hk
    refine read_congr (by rw [hu]; exact i1) (by rw [hu]; exact k2) d hd name k' hn ?_
    rcases j2 with j2 | j2 | ⟨ts, j2⟩
    · rw [j2]
    · rw [j2, KV.get_del, if_neg (fun e => hk e.symm)]
    · rw [j2, KV.get_put, if_neg (fun e => hk e.symm)]
  · intro c' name hu hn hk0 hk1 hf
    rw [get_reply (by rw [hu]; exact k2) name k hn hk0 hk1 hf,
      get_reply (by rw [hu]; exact i1) name k hn hk0 hk1 hf]
    rcases j2 with j2 | j2 | ⟨ts, j2⟩
    · left; rw [j2]
    · right; right; rw [j2, KV.get_del, if_pos rfl]; rfl
    · right; left; rw [j2, KV.get_put, if_pos rfl]; rfl

/-- C36, user-key mode: if the process dies at any point of a DEL, the next start succeeds, every other key
    answers as before, and the key is there with its payload or gone. -/
theorem C36_user {cfg : Option Mode} {u : Nat} {tr : List (LifeEv × Reply)} {br br0 : Branches} {s : Store}
    (h : LifeRun cfg u tr br s) (hlen : tr.length < maxEvents) (c : Ctx) (hu : c.u = u)
    (n k : Bytes) (p : Death) (hbr : ∀ h, (br0 h).filter (fun e => e.ns == u) = []) :
    ∃ br1 s1, loadNs cfg br0 u (deathFiles c br s .del [n, k] p).1
        (deathFiles c br s .del [n, k] p).2 = .ok br1 s1 ∧
      (∀ (c' : Ctx) (d : DsCmd) (name k' : Bytes), c'.u = u → d.readsKey = true → name ≠ [] → k' ≠ k →
        (dsCommand c' br1 s1 d [name, k']).2.2 = (dsCommand c' br s d [name, k']).2.2) ∧
      ((∀ (c' : Ctx) (d : DsCmd) (name : Bytes), c'.u = u → d.readsKey = true → name ≠ [] →
          (dsCommand c' br1 s1 d [name, k]).2.2 = (dsCommand c' br s d [name, k]).2.2) ∨
       (∀ (c' : Ctx) (name : Bytes), c'.u = u → name ≠ [] → k ≠ [] → k.length ≤ 255 → c'.conf.lock ≠ .frozen →
          cmdGet c' br1 s1 [name, k] = .nil)) := by
  subst hu
  obtain ⟨G, i1, i2, i3, -⟩ := h.inv
  obtain ⟨G1, j1, j2⟩ := i1.diedDel n k p
  have hlen1 : G1.length < 2 ^ 32 := by
    obtain ⟨b, t, k1, k2, -⟩ := j1
    have := k1.irep.length
    rw [k2] at this
    have := (deathFiles_grows c br s .del [n, k] p ((n.length + k.length)) (by
      intro b hb
      simp only [List.mem_cons, List.not_mem_nil, or_false] at hb
      rcases hb with rfl | rfl <;> omega)).1
    unfold maxEvents at hlen
    omega
  obtain ⟨br1, s1, k1, k2, -⟩ := j1.load (br0 := br0) cfg h.hcfg hlen1 hbr
  refine ⟨br1, s1, k1, ?_, ?_⟩
  · intro c' d name k' hu hd hn hk
    refine read_congr (by rw [hu]; exact i1) (by rw [hu]; exact k2) d hd name k' hn ?_
    rcases j2 with j2 | j2
    · rw [j2]
    · rw [j2, KV.get_del, if_neg (fun e => hk e.symm)]
  · rcases j2 with j2 | j2
    · left
      intro c' d name hu hd hn
      exact read_congr (by rw [hu]; exact i1) (by rw [hu]; exact k2) d hd name k hn (by rw [j2])
    · right
      intro c' name hu hn hk0 hk1 hf
      rw [get_reply (by rw [hu]; exact k2) name k hn hk0 hk1 hf, j2, KV.get_del, if_pos rfl]
      rfl

/-- C50, user-key mode, for executions in which the process may die during any number of commands, at
    points that leave no part of an index record: a key reads one of the values it may have.
    In particular an acknowledged SET is not lost by the process dying in commands on other keys
    (`C50_kept`).  Missing: `C50_refuted`. -/
theorem C50_partial {cfg : Option Mode} {u : Nat} {tr : List (LifeEv × Reply)} {br : Branches} {s : Store}
    (h : LifeRun cfg u tr br s) (c : Ctx) (hu : c.u = u) (name k : Bytes) (hn : name ≠ []) (hk : k ≠ [])
    (hl : k.length ≤ 255) (hf : c.conf.lock ≠ .frozen) :
    cmdGet c br s [name, k] ∈ (possible k tr).map getReply := by
  subst hu
  obtain ⟨G, i1, -, -, i4⟩ := h.inv
  rw [get_reply i1 name k hn hk hl hf]
  exact List.mem_map_of_mem (i4 k)

/-- The event does not write to `k`. -/
def LifeEv.spares (k : Bytes) : LifeEv → Prop
  | .ev (.cmd _ .set argv) | .ev (.cmd _ .del argv) | .died _ .set argv _ | .died _ .del argv _ =>
    ∀ n k' rest, argv = n :: k' :: rest → k' ≠ k
  | _ => True

theorem mayBe_spares {k : Bytes} {old : List (Option Bytes)} {x : LifeEv × Reply} (h : x.1.spares k) :
    mayBe k old x = old := by
  obtain ⟨e, r⟩ := x
  cases e with
  | ev e =>
    have : writeOf k (e, r) = none := by
      unfold writeOf
      split
      · rename_i heq
        simp only [Prod.mk.injEq] at heq
        obtain ⟨rfl, -⟩ := heq
        rw [if_neg (h _ _ _ rfl)]
      · rename_i heq
        simp only [Prod.mk.injEq] at heq
        obtain ⟨rfl, -⟩ := heq
        rw [if_neg (h _ _ _ rfl)]
      · rfl
    simp only [mayBe, this]
  | died c d argv p =>
    unfold mayBe
    split
    · rename_i heq; simp at heq
    · rename_i heq
      simp only [Prod.mk.injEq, LifeEv.died.injEq] at heq
      obtain ⟨⟨-, rfl, rfl, -⟩, -⟩ := heq
      rw [if_neg (h _ _ _ rfl)]
    · rename_i heq
      simp only [Prod.mk.injEq, LifeEv.died.injEq] at heq
      obtain ⟨⟨-, rfl, rfl, -⟩, -⟩ := heq
      rw [if_neg (h _ _ _ rfl)]
    · rfl

/-- An acknowledged SET is read back whatever happens to other keys afterwards, the process dying any
    number of times included. -/
theorem C50_kept {cfg : Option Mode} {u : Nat} {tr tr' : List (LifeEv × Reply)} {br : Branches} {s : Store}
    {c0 : Ctx} {n k v : Bytes} {rest : List Bytes} {r : Bytes}
    (h : LifeRun cfg u (tr ++ (.ev (.cmd c0 .set (n :: k :: v :: rest)), .bulk r) :: tr') br s)
    (hs : ∀ x ∈ tr', x.1.spares k) (c : Ctx) (hu : c.u = u) (name : Bytes) (hn : name ≠ []) (hk : k ≠ [])
    (hl : k.length ≤ 255) (hf : c.conf.lock ≠ .frozen) :
    cmdGet c br s [name, k] = .bulk v := by
  have hm := C50_partial h c hu name k hn hk hl hf
  have hp : possible k (tr ++ (.ev (.cmd c0 .set (n :: k :: v :: rest)), .bulk r) :: tr') = [some v] := by
    unfold possible
    rw [List.foldl_append, List.foldl_cons]
    have : ∀ (l : List (LifeEv × Reply)) old, (∀ x ∈ l, x.1.spares k) → l.foldl (mayBe k) old = old := by
      intro l
      induction l with
      | nil => intro old _; rfl
      | cons x l ih =>
        intro old hx
        rw [List.foldl_cons, mayBe_spares (hx x (List.mem_cons_self ..))]
        exact ih old (fun y hy => hx y (List.mem_cons_of_mem _ hy))
    rw [this _ _ hs]
    simp [mayBe, writeOf]
  rw [hp] at hm
  simpa [getReply] using hm

/-! ### what goes wrong -/

/-- One key stored. -/
def exOne : List (Ctx × DsCmd × List Bytes) := [(exCtx, .set, [str "SET", str "a", str "one"])]

def exOneBr : Branches := (runCmds (fun _ => []) (freshStore .user) exOne).1
def exOneStore : Store := (runCmds (fun _ => []) (freshStore .user) exOne).2.1

theorem NsRun.toCrash {cfg : Option Mode} {u : Nat} {br br' : Branches} {s s' : Store}
    {tr : List (NsEvent × Reply)} (h : NsRun cfg u br s tr br' s') :
    CrashRun cfg u br s (tr.map (fun x => (.ev x.1, x.2))) br' s' := by
  induction h with
  | nil => exact .nil _ _
  | cmd c d argv hu h1 _ ih => exact .ev (.cmd c d argv hu h1 (.nil _ _)) ih
  | foreign h1 _ ih => exact .ev (.foreign h1 (.nil _ _)) ih
  | reload h1 _ ih => exact .ev (.reload h1 (.nil _ _)) ih

/-- Executions without a death are among them. -/
theorem UserRun.toLife {cfg : Option Mode} {u : Nat} {tr : List (NsEvent × Reply)} {br : Branches} {s : Store}
    (h : UserRun cfg u tr br s) : LifeRun cfg u (tr.map (fun x => (.ev x.1, x.2))) br s where
  hcfg := h.hcfg
  run := by
    obtain ⟨br0, br, s, h0, h1, h2⟩ := h.run
    exact ⟨br0, br, s, h0, h1, h2.toCrash⟩
  ev := by
    intro x hx
    obtain ⟨y, hy, rfl⟩ := List.mem_map.1 hx
    exact h.ev y hy
  len := by simpa using h.len

theorem exOneRun : UserRun none 7 (traceOf (fun _ => []) (freshStore .user) exOne) exOneBr exOneStore :=
  userRun_ok exOne (by decide) (by decide)

/-- Overwriting `a`. -/
def exOver : List Bytes := [str "SET", str "a", str "two"]

/-- The state after the start following the death of the process at `p` while it overwrites `a`. -/
def exAfter (c : Ctx) (p : Death) : LoadRes :=
  loadNs none (fun _ => []) 7 (deathFiles c exOneBr exOneStore .set exOver p).1
    (deathFiles c exOneBr exOneStore .set exOver p).2

/-- What a result of loading answers to GET `a`. -/
def LoadRes.getA : LoadRes → Option Reply
  | .ok br s => some (cmdGet exCtx br s [str "GET", str "a"])
  | _ => none

/-- Whether the start succeeds. -/
def LoadRes.kind : LoadRes → Nat
  | .ok _ _ => 0
  | .exit => 1
  | .ub => 2

/-- The hypotheses of `C35_partial` are met by each of these points. -/
theorem exOver_ok (p : Death) (hp : p.whole exOver) : DiedOK exCtx exOver p :=
  ⟨by decide, by decide, ⟨⟨_, _, rfl, by decide⟩, by decide⟩, hp⟩

/-- The values: old before the flag is rewritten, none in between, new after the item is appended. -/
example : (exAfter exCtx (.dataHdr 20)).getA = some (.bulk (str "one")) := rfl
example : (exAfter exCtx (.dataPay 2)).getA = some (.bulk (str "one")) := rfl
example : (exAfter exCtx (.itemFlag 13)).getA = some (.bulk (str "one")) := rfl
example : (exAfter exCtx (.itemApp 35)).getA = some (.bulk (str "two")) := rfl
example : (exAfter exCtx (.itemOver 0)).getA = some (.bulk (str "two")) := rfl

set_option maxRecDepth 100000 in
/-- C35 is false in the middle of an overwriting SET: the old item is already flagged as deleted, the new
    one is not there yet; after the restart the key is gone. -/
theorem C35_refuted :
    cmdGet exCtx exOneBr exOneStore [str "GET", str "a"] = .bulk (str "one") ∧
    (exAfter exCtx (.itemFlag 14)).getA = some .nil ∧ (exAfter exCtx (.itemApp 0)).getA = some .nil :=
  ⟨rfl, rfl, rfl⟩

set_option maxRecDepth 100000 in
/-- C35 is false if part of the item is appended: the next start reads past the end of the buffer that
    holds the file.  With part of the header of a new index file the next start stops with an error. -/
theorem C35_restart_refuted :
    (exAfter exCtx (.itemApp 5)).kind = 2 ∧
    (exAfter { exCtx with limit := 20 } (.jumpIndex 5)).kind = 1 := ⟨rfl, rfl⟩

/-- Starting twice: the process dies when the next index file was created but is still empty, is started, acknowledges a
    SET, and is started again. -/
def exEmptyIndex : Option (Reply × Nat) :=
  match exAfter { exCtx with limit := 20 } (.jumpIndex 0) with
  | .ok br s =>
    let x := dsCommand exCtx br s .set [str "SET", str "b", str "two"]
    some (x.2.2, (reloadNs none x.1 7 x.2.1).kind)
  | _ => none

set_option maxRecDepth 100000 in
/-- C50 is false after a death that left an empty index file: the SET of the next process is acknowledged with
    its item at the beginning of that file, in place of the header, and the start after that stops with an
    error.  Nothing can be read any more. -/
theorem C50_refuted : exEmptyIndex = some (.bulk (str "b"), 1) := rfl

/-- As `exEmptyIndex`, with a DEL of `a` during which the process dies before its first write: what GET `b` answered
    before, and the start after it. -/
def exDelAfter : Option (Reply × Nat) :=
  match exAfter { exCtx with limit := 20 } (.jumpIndex 0) with
  | .ok br s =>
    let x := dsCommand exCtx br s .set [str "SET", str "b", str "two"]
    let f := deathFiles exCtx x.1 x.2.1 .del [str "DEL", str "a"] .start
    some (cmdGet exCtx x.1 x.2.1 [str "GET", str "b"], (loadNs none (fun _ => []) 7 f.1 f.2).kind)
  | _ => none

set_option maxRecDepth 100000 in
/-- C36 is false in states reached after a death that left an empty index file: `b` is stored and read, the process dies
    during a DEL of `a`, and the next start stops with an error; no key can be read. -/
theorem C36_refuted : exDelAfter = some (.bulk (str "two"), 1) := rfl

/-- A run meeting the hypotheses of `C50_kept`: `a` is stored, then the process dies while it writes `b`. -/
example : ∃ br s, LifeRun none 7
    ([] ++ (.ev (.cmd exCtx .set [str "SET", str "a", str "one"]), .bulk (str "a")) ::
      [(.died exCtx .set [str "SET", str "b", str "two"] (.itemApp 0), .nil)]) br s := by
  refine ⟨_, _, Or.inl rfl, ⟨fun _ => [], fun _ => [], freshStore .user, fun _ => rfl, freshNs_eq none _ 7,
    .ev (.cmd exCtx .set _ rfl rfl (.nil _ _)) (.died exCtx .set _ (.itemApp 0) (br0 := fun _ => []) rfl (fun _ => rfl) rfl (.nil _ _))⟩, ?_, by decide⟩
  intro x hx
  simp only [List.nil_append, List.mem_cons, List.not_mem_nil, or_false] at hx
  rcases hx with rfl | rfl
  · exact ⟨exCtx_ok, ⟨_, _, rfl, by decide⟩, by decide⟩
  · exact ⟨by decide, by decide, ⟨⟨_, _, rfl, by decide⟩, by decide⟩, Or.inl rfl⟩

end Zdb
