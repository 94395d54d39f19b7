/-
C84: nothing clients are sent depends on the password of administrators.
-/
import Verif.Spec.Admin
import Verif.Props.Secret
namespace Zdb

variable {S : Settings} {q pwd : Bytes} {n n1 : Node}

theorem cmdAuth_readmin (e : Env) (n : Node) (c : Client) (argv : List Bytes) (hS : S.adminpwd = some pwd)
    (h : ∀ x, (x = q ∨ S.adminpwd = some x) → ¬ GivesAdmin S c x argv) :
    cmdAuth (readmin q S) e n c argv = cmdAuth S e n c argv := by
  have h1 := h q (Or.inl rfl)
  have h2 := h pwd (Or.inr hS)
  have hS' : (readmin q S).adminpwd = some q := rfl
  unfold cmdAuth
  match argv, h1, h2 with
  | [], _, _ => rfl
  | [_], _, _ => rfl
  | [a, g], h1, h2 =>
    have h1 : (cstr g == q) = false := beq_eq_false_iff_ne.2 h1
    have h2 : (cstr g == pwd) = false := beq_eq_false_iff_ne.2 h2
    show cmdAuthRegular (readmin q S) n c [a, g] = cmdAuthRegular S n c [a, g]
    simp only [cmdAuthRegular, hS, hS', passwordCheck, h1, h2]
  | [a, w, g], h1, h2 =>
    have hh : (readmin q S).hash = S.hash := rfl
    show cmdAuthSecure (readmin q S) e n c [a, w, g] = cmdAuthSecure S e n c [a, w, g]
    simp only [cmdAuthSecure, hS, hS', hh]
    cases hk : c.nonce with
    | none => rfl
    | some k =>
      have h1 : (cstr g == S.hash k q) = false := beq_eq_false_iff_ne.2 (fun e => h1 ⟨k, hk, e⟩)
      have h2 : (cstr g == S.hash k pwd) = false := beq_eq_false_iff_ne.2 (fun e => h2 ⟨k, hk, e⟩)
      simp only [passwordCheck, h1, h2]
  | _ :: _ :: _ :: _ :: _, _, _ => simp

theorem runHandler_readmin (e : Env) (n : Node) (c : Client) (r : NsRec) (x : Handler) (argv : List Bytes) (hS : S.adminpwd = some pwd)
    (h : x = .auth → ∀ x, (x = q ∨ S.adminpwd = some x) → ¬ GivesAdmin S c x argv) :
    runHandler (readmin q S) e n c r x argv = runHandler S e n c r x argv := by
  cases x with
  | auth => exact cmdAuth_readmin e n c argv hS (h rfl)
  | _ => rfl

theorem request_readmin (fd : Nat) (e : Env) (argv : List Bytes) (hS : S.adminpwd = some pwd) (h : Unadmin S q n (.request fd e argv)) :
    request (readmin q S) n fd e argv = request S n fd e argv := by
  unfold request
  cases hc : getClient n fd with
  | none => rfl
  | some c =>
    simp only
    split
    · rfl
    · cases hp : popOwner e c argv with
      | none => rfl
      | some x =>
        obtain ⟨e', argv'⟩ := x
        simp only
        have : dispatch (readmin q S) e' n c argv' = dispatch S e' n c argv' := by
          unfold dispatch
          cases hns : c.ns with
          | none => rfl
          | some v =>
            simp only
            cases argv' with
            | nil => rfl
            | cons key rest =>
              simp only
              cases hl : lookupCmd key with
              | none => rfl
              | some i =>
                simp only
                cases hr : nsDeref n v with
                | none => rfl
                | some r =>
                  cases hh : handlers[i]? with
                  | none => rfl
                  | some y =>
                    exact runHandler_readmin e' n _ r y.2 _ hS (h _ (pick_of hc hp hns rfl hl hr hh))
        rw [this]

theorem loadDirs_readmin (ds : List Dir) (br : Branches) : loadDirs (readmin q S) br ds = loadDirs S br ds := by
  induction ds generalizing br with
  | nil => rfl
  | cons x ds ih =>
    simp only [loadDirs, ih]
    rfl

theorem boot_readmin (hp : S.protect = false) (x : Dir) (ds : List Dir) : boot (readmin q S) x ds = boot S x ds := by
  have : ∀ c, startConf (readmin q S) c = startConf S c := by
    intro c
    have : (readmin q S).protect = false := hp
    simp only [startConf, hp, this]
    rfl
  simp only [boot, loadDirs_readmin, this]

/-- **C84**, the start: the server starts alike with either password. -/
theorem C84_start (hp : S.protect = false) (h : Started S n) : Started (readmin q S) n := by
  obtain ⟨u, hu⟩ := h
  exact ⟨u, by rw [boot_readmin hp]; exact hu⟩

/-- **C84**, one event: with another password of administrators the event does the same, in every state. -/
theorem C84_step {ev : Event} (hS : S.adminpwd = some pwd) (hp : S.protect = false) (h : Unadmin S q n ev) :
    nodeStep (readmin q S) n ev = nodeStep S n ev := by
  cases ev with
  | request fd e argv => exact request_readmin fd e argv hS h
  | connect fd =>
    have : newClient (readmin q S) n = newClient S n := by simp only [newClient, readmin, hS, Option.isNone]
    simp only [nodeStep, this]
  | restart order =>
    have : restartNode (readmin q S) n order = restartNode S n order := by simp only [restartNode, boot_readmin hp]
    simp only [nodeStep, this]
  | _ => rfl

/-- **C84**, executions: with any other password of administrators all clients are sent the same in the same order, and the server ends
    up in the same state, until a client gives one of the two.  Missing: `--protect`, where the password is also that of the default
    namespace. -/
theorem C84_run_partial {l : List (Event × List (Nat × Msg))} {n' : Node} (hS : S.adminpwd = some pwd) (hp : S.protect = false)
    (h : NodeRun S n l n') (hq : UnadminRun S q n l) : NodeRun (readmin q S) n l n' := by
  induction h with
  | nil n => exact .nil _
  | cons hg hs _ ih => exact .cons hg (by rw [C84_step hS hp hq.1]; exact hs) (ih (hq.2 _ _ _ hs))

theorem NodeInv.readmin (h : NodeInv (readmin q S) n) : NodeInv S n := by
  cases h; constructor <;> assumption

theorem nodeStep_readmin {ev : Event} (hS : S.adminpwd = some pwd) (hev : ∀ o, ev ≠ .restart o) (ha : Unadmin S q n ev) :
    nodeStep (Zdb.readmin q S) n ev = nodeStep S n ev := by
  cases ev with
  | request fd e argv => exact request_readmin fd e argv hS ha
  | connect fd =>
    have : newClient (Zdb.readmin q S) n = newClient S n := by simp only [newClient, Zdb.readmin, hS, Option.isNone]
    simp only [nodeStep, this]
  | restart order => exact absurd rfl (hev order)
  | _ => rfl

theorem boot_protect {x : Dir} {ds : List Dir} (hS : S.adminpwd = some pwd) (hp : S.protect = true) (hi : NodeInv S n1)
    (h : boot S x ds = some n1) : ∃ m1, boot (Zdb.readmin q S) x ds = some m1 ∧ PassTwin x.uid n1 m1 := by
  unfold boot at h ⊢
  rw [loadDirs_readmin]
  cases hdesc : loadDesc x.name x.desc with
  | none => rw [hdesc] at h; cases h
  | some z =>
    rw [hdesc] at h
    simp only at h ⊢
    split at h
    · rename_i br y l hl
      have hyu : y.uid = x.uid := loadDirs_head (by rw [hdesc]; rfl) hl
      injection h with h
      refine ⟨_, rfl, q, y.desc, ?_⟩
      have hnd := hi.uids
      subst h
      have hr : recs ({ br := br, slots := some { y with conf := startConf S y.conf } :: l.map some, effective := l.length + 1
                        clients := [] } : Node) = { y with conf := startConf S y.conf } :: l := by
        simp [recs]
      rw [hr] at hnd
      have hl' : ∀ r ∈ l, r.uid ≠ x.uid := by
        intro r hr e
        simp only [List.map_cons, List.nodup_cons, List.mem_map, not_exists, not_and] at hnd
        exact hnd.1 r hr (e.trans hyu.symm)
      have hmap : l.map (fun r => some (alter x.uid q y.desc r)) = l.map some :=
        List.map_congr_left (fun r hr => by rw [alter_other (hl' r hr)])
      simp only [repass, List.map_cons, Option.map_some, List.map_map, Function.comp_def, hmap]
      rw [alter_self (r := { y with conf := startConf S y.conf }) hyu]
      have hp' : (Zdb.readmin q S).protect = true := hp
      simp only [startConf, hp, hp', hS, if_true, Option.map_some]
      rfl
    · cases h

theorem restart_protect {m : Node} {u : Nat} {order : List Nat} (hS : S.adminpwd = some pwd) (hp : S.protect = true) (hi : NodeInv S n)
    (hi1 : NodeInv S n1) (ht : PassTwin u n m) (hq : Protected S q u n m (.restart order)) (h : restartNode S n order = some n1) :
    ∃ m1, restartNode (Zdb.readmin q S) m order = some m1 ∧ PassTwin u n1 m1 := by
  obtain ⟨q0, d0, rfl⟩ := ht
  obtain ⟨r, r', hr, hr', hname, hdesc⟩ := hq
  rw [nsDeref_repass, hr] at hr'
  injection hr' with hr'
  subst hr'
  have hru := (nsDeref_some hr).2
  rw [alter_self hru] at hdesc
  obtain ⟨dd, l, hs, hdn⟩ := hi.head
  have hdd : dd ∈ recs n := by rw [mem_recs, hs]; exact List.mem_cons_self ..
  have hnd := hi.uids
  have hrr : r = dd := by
    have hrec : recs n = dd :: l.filterMap id := by unfold recs; rw [hs]; rfl
    have hnm := hi.names
    have hrm := (nsDeref_some hr).1
    rw [hrec] at hnm hrm
    rcases List.mem_cons.1 hrm with h1 | h1
    · exact h1
    · simp only [List.map_cons, List.nodup_cons, List.mem_map, not_exists, not_and] at hnm
      exact absurd (hname.trans hdn.symm) (hnm.1 r h1)
  subst hrr
  have hl' : ∀ x ∈ l, Option.map (alter u q0 d0) x = x := by
    intro x hx
    cases x with
    | none => rfl
    | some y =>
      have hy : y ∈ l.filterMap id := List.mem_filterMap.2 ⟨some y, hx, rfl⟩
      have hyu : y.uid ≠ u := by
        intro e
        have : recs n = r :: l.filterMap id := by unfold recs; rw [hs]; rfl
        rw [this] at hnd
        simp only [List.map_cons, List.nodup_cons, List.mem_map, not_exists, not_and] at hnd
        exact hnd.1 y hy (e.trans hru.symm)
      rw [Option.map_some, alter_other hyu]
  have hs' : (repass u q0 d0 n).slots = some (alter u q0 d0 r) :: l := by
    show n.slots.map _ = _
    rw [hs, List.map_cons, Option.map_some, List.map_congr_left (g := id) hl', List.map_id]
  have hdir : (alter u q0 d0 r).dir = r.dir := by
    rw [alter_self hru]
    have hdesc : d0 = r.desc := hdesc
    simp only [NsRec.dir, hdesc]
  unfold restartNode at h ⊢
  rw [hs] at h
  rw [hs']
  simp only [hdir] at h ⊢
  obtain ⟨m1, h1, h2⟩ := boot_protect (q := q) hS hp hi1 h
  refine ⟨m1, h1, ?_⟩
  have : r.dir.uid = u := hru
  rw [this] at h2
  exact h2

/-- **C84**, with `--protect`: the password of administrators is also that of the default namespace, and with another one in both places
    all clients are sent the same in the same order, until one gives one of the two.  Missing: restarts after the settings of the default
    namespace were changed (see `C84_kept_refuted`). -/
theorem C84_protect_run_partial {m n' : Node} {u : Nat} {l : List (Event × List (Nat × Msg))} (hS : S.adminpwd = some pwd)
    (hp : S.protect = true) (hn : Reachable S n) (hm : Reachable (Zdb.readmin q S) m) (ht : PassTwin u n m) (h : NodeRun S n l n')
    (hq : ProtectRun S q u n m l) : ∃ m', NodeRun (Zdb.readmin q S) m l m' ∧ PassTwin u n' m' := by
  have hi := hn.inv
  have hi' := hm.inv
  clear hn hm
  induction h generalizing m with
  | nil n => exact ⟨m, .nil _, ht⟩
  | @cons n0 n1 n2 ev sent st l hg hs _ ih =>
    obtain ⟨h1, h4⟩ := hq
    have hg2 : Guard (Zdb.readmin q S) m ev := by
      obtain ⟨q0, d0, rfl⟩ := ht
      have := hg.repass (u := u) (q := q0) (d := d0)
      cases ev <;> exact this
    have hd' : ∃ m1, nodeStep (Zdb.readmin q S) m ev = .ok m1 sent st ∧ PassTwin u n1 m1 := by
      by_cases hev : ∃ o, ev = .restart o
      · obtain ⟨o, rfl⟩ := hev
        have hi1 := hi.step hg hs
        simp only [nodeStep] at hs ⊢
        cases hres : restartNode S n0 o with
        | none => rw [hres] at hs; cases hs
        | some x =>
          rw [hres] at hs
          injection hs with k1 k2 k3
          subst k1 k2 k3
          obtain ⟨m1, j1, j2⟩ := restart_protect hS hp hi hi1 ht h1 hres
          exact ⟨m1, by rw [j1], j2⟩
      · have hev : ∀ o, ev ≠ .restart o := fun o e => hev ⟨o, e⟩
        have h1 : Untold S u n0 m ev ∧ Unadmin S q m ev := by
          cases ev with
          | restart o => exact absurd rfl (hev o)
          | _ => exact h1
        obtain ⟨m1, hd, ht1, -⟩ := step_twin hi hi'.readmin ht hg h1.1 hs
        exact ⟨m1, (nodeStep_readmin hS hev h1.2).trans hd, ht1⟩
    obtain ⟨m1, hd, ht1⟩ := hd'
    obtain ⟨m', hr, hr'⟩ := ih ht1 (h4 _ _ _ _ hs hd) (hi.step hg hs) (hi'.step hg2 hd)
    exact ⟨m', .cons hg2 hd hr, hr'⟩

/-! ### cases -/

/-- `Unadmin`, computed. -/
def unadminB (S : Settings) (q : Bytes) (n : Node) : Event → Bool
  | .request fd e argv =>
    match pick n fd e argv with
    | none => true
    | some p =>
      p.h != .auth ||
        match p.argv with
        | [_, g] => cstr g != q && S.adminpwd.all (fun x => cstr g != x)
        | [_, _, h] =>
          match p.c.nonce with
          | none => true
          | some k => cstr h != S.hash k q && S.adminpwd.all (fun x => cstr h != S.hash k x)
        | _ => true
  | _ => true

theorem unadminB_ok {ev : Event} (h : unadminB S q n ev = true) : Unadmin S q n ev := by
  cases ev with
  | request fd e argv =>
    intro p hp hh x hx
    have hb : (Handler.auth != Handler.auth) = false := by decide
    simp only [unadminB, hp, hh, hb, Bool.false_or] at h
    split at h
    · rename_i e
      rw [e]
      simp only [Bool.and_eq_true] at h
      rcases hx with rfl | hx
      · exact bne_iff_ne.1 h.1
      · have h := h.2; rw [hx] at h; exact bne_iff_ne.1 h
    · rename_i e
      rw [e]
      rintro ⟨k, h1, h2⟩
      rw [h1] at h
      simp only [Bool.and_eq_true] at h
      rcases hx with rfl | hx
      · exact (bne_iff_ne.1 h.1) h2
      · have h := h.2; rw [hx] at h; exact (bne_iff_ne.1 h) h2
    · rename_i h1 h2
      intro hg
      unfold GivesAdmin at hg
      split at hg
      · rename_i e; exact h1 _ _ e
      · rename_i e; exact h2 _ _ _ e
      · exact hg
  | _ => trivial

/-- Running events as in `UnadminRun`. -/
def runUnadmin (S : Settings) (q : Bytes) : Node → List Event → Option (Node × List (Event × List (Nat × Msg)))
  | n, [] => some (n, [])
  | n, ev :: evs =>
    if guardB n ev && unadminB S q n ev then
      match nodeStep S n ev with
      | .ok n1 sent _ => (runUnadmin S q n1 evs).map (fun x => (x.1, (ev, sent) :: x.2))
      | _ => none
    else none

theorem runUnadmin_run {md : Mode} (hm : S.cfg = some md) {n' : Node} {evs : List Event} {l : List (Event × List (Nat × Msg))}
    (hi : NodeInv S n) (h : runUnadmin S q n evs = some (n', l)) : NodeRun S n l n' ∧ UnadminRun S q n l := by
  induction evs generalizing n l with
  | nil =>
    simp only [runUnadmin, Option.some.injEq, Prod.mk.injEq] at h
    obtain ⟨rfl, rfl⟩ := h
    exact ⟨.nil _, trivial⟩
  | cons ev evs ih =>
    simp only [runUnadmin] at h
    split at h
    · rename_i hg
      simp only [Bool.and_eq_true] at hg
      split at h
      · rename_i n1 sent st hs
        obtain ⟨⟨n2, l2⟩, h2, h3⟩ := Option.map_eq_some_iff.1 h
        simp only [Prod.mk.injEq] at h3
        obtain ⟨rfl, rfl⟩ := h3
        have hgu := guardB_ok hm hi hg.1
        obtain ⟨i1, i2⟩ := ih (hi.step hgu hs) h2
        refine ⟨.cons hgu hs i1, unadminB_ok hg.2, fun n3 sent3 st3 hs3 => ?_⟩
        simp only at hs3
        rw [hs] at hs3
        injection hs3 with h1 _ _
        subst h1
        exact i2
      · cases h
    · cases h

/-- A client tries to become an administrator, in clear and with a digest, stores a payload, and tries again after a restart. -/
def exAuths : List Event :=
  [.connect 5, .request 5 (exE 1) [str "AUTH", str "pq"], .request 5 (exE 2) [str "NSNEW", str "foo"],
   .request 5 (exE 3) [str "SET", str "k", str "v"], .request 5 (exE 4) [str "AUTH", str "SECURE", str "CHALLENGE"],
   .request 5 (exE 5) [str "AUTH", str "SECURE", List.replicate 40 48], .restart [], .connect 6,
   .request 6 (exE 6) [str "GET", str "k"], .request 6 (exE 7) [str "AUTH", str "pwd"]]

set_option maxRecDepth 100000 in
/-- A case of `C84_run_partial`. -/
theorem C84_example : ∃ n n' l, Started exS n ∧ exS.adminpwd = some (str "pw") ∧ exS.protect = false ∧ NodeRun exS n l n' ∧
    UnadminRun exS (str "other") n l ∧
    firstReplies l = [none, some (.err "Access denied"), some errDenied, some (.bulk (str "k")), none, some (.err "Access denied"),
      none, none, some (.bulk (str "v")), some (.err "Access denied")] := by
  have hq : ((runUnadmin exS (str "other") (exNode exS) exAuths).map (fun x => firstReplies x.2)) =
    some [none, some (.err "Access denied"), some errDenied, some (.bulk (str "k")), none, some (.err "Access denied"),
      none, none, some (.bulk (str "v")), some (.err "Access denied")] := rfl
  obtain ⟨⟨n1, l⟩, h, h2⟩ := Option.map_eq_some_iff.1 hq
  obtain ⟨hl1, hl2⟩ := runUnadmin_run (md := .user) rfl exNode_started.inv h
  exact ⟨_, n1, l, exNode_started, rfl, rfl, hl1, hl2, h2⟩

/-- The settings of the examples with `--protect`. -/
def exP : Settings := { exS with protect := true }

/-- `Protected`, computed. -/
def protectedB (S : Settings) (q : Bytes) (u : Nat) (n m : Node) : Event → Bool
  | .restart _ =>
    match nsDeref n u, nsDeref m u with
    | some r, some r' => r.conf.name == nameDefault && r'.desc == r.desc
    | _, _ => false
  | ev => untoldB S u n m ev && unadminB S q m ev

theorem protectedB_ok {m : Node} {u : Nat} {ev : Event} (h : protectedB S q u n m ev = true) : Protected S q u n m ev := by
  cases ev with
  | restart o =>
    simp only [protectedB] at h
    split at h
    · rename_i r r' h1 h2
      simp only [Bool.and_eq_true, beq_iff_eq] at h
      exact ⟨r, r', h1, h2, h.1, h.2⟩
    · cases h
  | _ =>
    simp only [protectedB, Bool.and_eq_true] at h
    exact ⟨untoldB_ok h.1, unadminB_ok h.2⟩

/-- Running events as in `ProtectRun`. -/
def runProtect (S : Settings) (q : Bytes) (u : Nat) : Node → Node → List Event → Option (Node × List (Event × List (Nat × Msg)))
  | n, _, [] => some (n, [])
  | n, m, ev :: evs =>
    if guardB n ev && protectedB S q u n m ev then
      match nodeStep S n ev, nodeStep (Zdb.readmin q S) m ev with
      | .ok n1 sent _, .ok m1 _ _ => (runProtect S q u n1 m1 evs).map (fun x => (x.1, (ev, sent) :: x.2))
      | _, _ => none
    else none

theorem runProtect_run {md : Mode} (hm : S.cfg = some md) {m n' : Node} {u : Nat} {evs : List Event}
    {l : List (Event × List (Nat × Msg))} (hi : NodeInv S n) (h : runProtect S q u n m evs = some (n', l)) :
    NodeRun S n l n' ∧ ProtectRun S q u n m l := by
  induction evs generalizing n m l with
  | nil =>
    simp only [runProtect, Option.some.injEq, Prod.mk.injEq] at h
    obtain ⟨rfl, rfl⟩ := h
    exact ⟨.nil _, trivial⟩
  | cons ev evs ih =>
    simp only [runProtect] at h
    split at h
    · rename_i hg
      simp only [Bool.and_eq_true] at hg
      split at h
      · rename_i n1 sent st m1 sent' st' hs hs1
        obtain ⟨⟨n2, l2⟩, h2, h3⟩ := Option.map_eq_some_iff.1 h
        simp only [Prod.mk.injEq] at h3
        obtain ⟨rfl, rfl⟩ := h3
        have hgu := guardB_ok hm hi hg.1
        obtain ⟨i1, i2⟩ := ih (hi.step hgu hs) h2
        refine ⟨.cons hgu hs i1, protectedB_ok hg.2, fun n3 m3 sent3 st3 hs3 hs4 => ?_⟩
        simp only at hs3 hs4
        rw [hs] at hs3
        rw [hs1] at hs4
        injection hs3 with h1 _ _
        injection hs4 with h4 _ _
        subst h1 h4
        exact i2
      · cases h
    · cases h

/-- A client tries to become an administrator, to write, and to select the default namespace with a
    password, also after a restart. -/
def exGuesses : List Event :=
  [.connect 5, .request 5 (exE 1) [str "AUTH", str "pq"], .request 5 (exE 2) [str "SET", str "k", str "v"],
   .request 5 (exE 3) [str "SELECT", str "default", str "pq"], .request 5 (exE 4) [str "NSINFO", str "default"],
   .request 5 (exE 5) [str "GET", str "k"], .restart [], .connect 6, .request 6 (exE 6) [str "SELECT", str "default", str "pp"]]

set_option maxRecDepth 100000 in
/-- A case of `C84_protect_run_partial`. -/
theorem C84_protect_example : ∃ n m n' l, exP.adminpwd = some (str "pw") ∧ exP.protect = true ∧ Reachable exP n ∧ Reachable (Zdb.readmin (str "other") exP) m ∧ PassTwin 1 n m ∧ n ≠ m ∧
    NodeRun exP n l n' ∧ ProtectRun exP (str "other") 1 n m l ∧
    firstReplies l = [none, some (.err "Access denied"), some (.err "Namespace is in read-only mode"), some (.err "Access denied"),
      none, some .nil, none, none, some (.err "Access denied")] := by
  have h0 : Started exP (exNode exP) := ⟨1, rfl⟩
  have h1 : Started (Zdb.readmin (str "other") exP) (exNode (Zdb.readmin (str "other") exP)) := ⟨1, rfl⟩
  have htwin : exNode (Zdb.readmin (str "other") exP) = repass 1 (str "other")
      (((nsDeref (exNode (Zdb.readmin (str "other") exP)) 1).map (·.desc)).getD []) (exNode exP) := rfl
  have hq : ((runProtect exP (str "other") 1 (exNode exP) (exNode (Zdb.readmin (str "other") exP)) exGuesses).map
    (fun x => firstReplies x.2)) =
    some [none, some (.err "Access denied"), some (.err "Namespace is in read-only mode"), some (.err "Access denied"),
      none, some .nil, none, none, some (.err "Access denied")] := rfl
  obtain ⟨⟨n1, l⟩, h, h2⟩ := Option.map_eq_some_iff.1 hq
  obtain ⟨hl1, hl2⟩ := runProtect_run (md := .user) rfl h0.inv h
  refine ⟨_, _, n1, l, rfl, rfl, ⟨_, [], h0, .nil _⟩, ⟨_, [], h1, .nil _⟩, ⟨_, _, htwin⟩, fun e => ?_, hl1, hl2, h2⟩
  have : (nsDeref (exNode exP) 1).map (·.conf.password) ≠ (nsDeref (exNode (Zdb.readmin (str "other") exP)) 1).map (·.conf.password) := by
    decide +kernel
  rw [← e] at this
  exact this rfl

/-- An administrator locks and unlocks the default namespace. -/
def exLockDef : List Event :=
  [.connect 5, .request 5 (exE 1) [str "AUTH", str "pw"], .request 5 (exE 2) [str "NSSET", str "default", str "lock", str "1"],
   .request 5 (exE 3) [str "NSSET", str "default", str "lock", str "0"]]

set_option maxRecDepth 100000 in
/-- What the server keeps does depend on the password with `--protect`: once an administrator locks and unlocks the default namespace, the
    password of administrators is in its settings file, in clear.  Started later without `--protect`, the server has it as the password
    of the default namespace; without the two commands it has none. -/
theorem C84_kept_refuted : ∃ n n' r, Started exP n ∧ Reachable exP n' ∧ nsDeref n' 1 = some r ∧ r.desc.drop 22 = str "pw" ∧
    (restartNode exS n' []).map (fun x => (nsDeref x 1).map (·.conf.password)) = some (some (some (str "pw"))) ∧
    (restartNode exS n []).map (fun x => (nsDeref x 1).map (·.conf.password)) = some (some none) := by
  have h0 : Started exP (exNode exP) := ⟨1, rfl⟩
  have hr := ran_reachable (S := exP) (m := .user) rfl h0 exLockDef
  have hd : (nsDeref (ranNode exP exLockDef) 1).map (·.desc.drop 22) = some (str "pw") := rfl
  obtain ⟨r, h1, h2⟩ := Option.map_eq_some_iff.1 hd
  exact ⟨_, _, r, h0, hr, h1, h2, rfl, rfl⟩

end Zdb
