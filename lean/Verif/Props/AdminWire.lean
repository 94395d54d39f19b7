/-
C84 for the bytes clients receive: the reads, the requests and what is sent are the same with another password of administrators.
-/
import Verif.Props.Admin
import Verif.Lemmas.RespRet
import Verif.Props.Server
namespace Zdb.Resp

/-- The loop that reads requests depends on the dispatcher only for the requests it hands over. -/
theorem parse_same {ret ret' : List (List Arg) → Status} {c c' : Conn} {v v' : Status} (h : parse ret c v = some (c', v'))
    (hr : ∀ x, c.ran <+: x → x <+: c'.ran → ret' x = ret x) : parse ret' c v = some (c', v') := by
  generalize hn : c.weight = n
  induction n using Nat.strongRecOn generalizing c v with
  | ind n ih =>
    have h0 := h
    rw [parse] at h ⊢
    split at h
    · rename_i hb
      rw [dif_pos hb]
      have ha := turn_agree ret ret' c v
      split at h
      · cases h
      · rename_i c1 v1 hx
        rw [hx] at ha
        have hx' := ha.2
        split
        · rename_i hy; rw [hx'] at hy; cases hy
        · rename_i hy; rw [hx'] at hy; injection hy with h1 h2; rw [← h1, ← h2]; exact h
        · rename_i hy; rw [hx'] at hy; cases hy
      · rename_i c1 v1 hx
        have hlt := turn_weight hb hx
        rw [hx] at ha
        have hg := (parse_grows h).1
        have hx' : turn ret' c v = .go c1 v1 ∧ c.ran <+: c1.ran := by
          rcases ha.2 with ⟨g1, g2⟩ | ⟨⟨r, g1⟩, g2, g3⟩
          · exact ⟨g2, by rw [g1]; exact List.prefix_refl _⟩
          · have hp : c.ran <+: c1.ran := by rw [g1]; exact List.prefix_append _ _
            exact ⟨by rw [g3, hr _ hp hg, ← g2], hp⟩
        obtain ⟨hx', hp⟩ := hx'
        have := ih c1.weight (by omega) h (fun x h1 h2 => hr x (hp.trans h1) h2) rfl
        split
        · rename_i hy; rw [hx'] at hy; cases hy
        · rename_i hy; rw [hx'] at hy; cases hy
        · rename_i hy; rw [hx'] at hy; injection hy with h1 h2; rw [← h1, ← h2]; exact this
    · rename_i hb
      rw [dif_neg hb]
      exact h

theorem onRecv_same {ret ret' : List (List Arg) → Status} {c c' : Conn} {r : Recv} (h : (onRecv ret c r).conn = some c')
    (hr : ∀ x, c.ran <+: x → x <+: c'.ran → ret' x = ret x) : onRecv ret' c r = onRecv ret c r := by
  unfold onRecv at h ⊢
  split
  · rfl
  · rename_i hz
    rw [if_neg hz] at h
    cases r with
    | data d =>
      simp only at h ⊢
      cases hp : parse ret { c with buf := c.buf.write d } .success with
      | none => rw [hp] at h; cases h
      | some y =>
        obtain ⟨c1, v1⟩ := y
        have hc : c1 = c' := by
          rw [hp] at h
          cases v1 <;> (injection h)
        subst hc
        rw [parse_same hp hr]
    | _ => rfl

end Zdb.Resp

namespace Zdb.Server

variable {S : Settings} {q pwd : Bytes}

theorem runReqs_readmin {fd : Nat} {ar : Nat → Around} {rs : List (List Bytes)} {i : Nat} {n : Node} {R : Ran}
    {l : List (Event × List (Nat × Msg))} (hS : S.adminpwd = some pwd) (h : runReqs S fd ar i n rs = some R)
    (hq : UnadminRun S q n (R.evs ++ l)) :
    (∀ p, p <+: rs → runReqs (readmin q S) fd ar i n p = runReqs S fd ar i n p) ∧ UnadminRun S q R.node l := by
  induction rs generalizing i n R with
  | nil =>
    simp only [runReqs, Option.some.injEq] at h
    subst h
    refine ⟨fun p hp => ?_, hq⟩
    rw [List.prefix_nil.1 hp]; rfl
  | cons r rs ih =>
    simp only [runReqs] at h
    split at h
    · rename_i n1 sent st he
      split at h
      · rename_i R1 h1
        simp only [Option.some.injEq] at h
        subst h
        obtain ⟨hq1, hq2⟩ := hq
        have hi := ih h1 (hq2 n1 sent st he)
        refine ⟨fun p hp => ?_, hi.2⟩
        cases p with
        | nil => rfl
        | cons r' p =>
          obtain ⟨rfl, hpp⟩ := List.cons_prefix_cons.1 hp
          have hp1 := hi.1 p hpp
          simp only [runReqs, request_readmin fd (ar i).e r' hS hq1, he]
          rw [hp1]
      · cases h
    · cases h

/-- A read with either password. -/
theorem read_readmin {σ : Server} {fd : Nat} {k : Link} {r : Resp.Recv} {ar : Nat → Around} {c : Resp.Conn} {R : Ran}
    {l : List (Event × List (Nat × Msg))} (hS : S.adminpwd = some pwd)
    (hc : (Resp.onRecv (retOf S fd ar σ.node k.conn.ran.length) k.conn r).conn = some c)
    (h : runReqs S fd ar 0 σ.node (fresh k.conn c) = some R) (hq : UnadminRun S q σ.node (R.evs ++ l)) :
    Resp.onRecv (retOf (readmin q S) fd ar σ.node k.conn.ran.length) k.conn r =
      Resp.onRecv (retOf S fd ar σ.node k.conn.ran.length) k.conn r ∧
    runReqs (readmin q S) fd ar 0 σ.node (fresh k.conn c) = some R ∧ UnadminRun S q R.node l := by
  obtain ⟨h1, h2⟩ := runReqs_readmin hS h hq
  refine ⟨Resp.onRecv_same hc fun x hk hx => ?_, by rw [h1 _ (List.prefix_refl _)]; exact h, h2⟩
  unfold retOf
  obtain ⟨t, ht⟩ := hx
  have hd : x.drop k.conn.ran.length <+: c.ran.drop k.conn.ran.length :=
    ⟨t, by rw [← ht, List.drop_append_of_le_length hk.length_le]⟩
  rw [h1 _ (List.IsPrefix.map _ hd)]

/-- **C84**, one event of the server with its connections. -/
theorem step_readmin {σ σ1 : Server} {ev : Ev} (hS : S.adminpwd = some pwd) (hp : S.protect = false) (h : step S σ ev = some σ1) :
    ∃ l, σ1.log = σ.log ++ l ∧ ∀ l2, UnadminRun S q σ.node (l ++ l2) →
      step (readmin q S) σ ev = some σ1 ∧ UnadminRun S q σ1.node l2 := by
  cases ev with
  | accept fd mem =>
    simp only [step] at h ⊢
    split at h
    · rename_i hc
      injection h with h
      subst h
      refine ⟨_, rfl, fun l2 hq => ⟨?_, hq.2 _ _ _ rfl⟩⟩
      have : newClient (readmin q S) σ.node = newClient S σ.node := by simp only [newClient, readmin, hS, Option.isNone]
      rw [if_pos hc, this]
    · cases h
  | recv fd r ar ans =>
    have hread : ∀ k, step.read S σ fd k r ar ans = some σ1 → ∃ l, σ1.log = σ.log ++ l ∧ ∀ l2, UnadminRun S q σ.node (l ++ l2) →
        step.read (readmin q S) σ fd k r ar ans = some σ1 ∧ UnadminRun S q σ1.node l2 := by
      intro k h
      unfold step.read at h ⊢
      cases ho : Resp.onRecv (retOf S fd ar σ.node k.conn.ran.length) k.conn r with
      | crash => rw [ho] at h; cases h
      | «open» c =>
        rw [ho] at h
        simp only at h
        split at h
        · rename_i R hR
          injection h with h
          subst h
          refine ⟨R.evs, rfl, fun l2 hq => ?_⟩
          obtain ⟨g1, g2, g3⟩ := read_readmin hS (by rw [ho]; rfl) hR hq
          rw [g1, ho]
          simp only [g2]
          exact ⟨trivial, g3⟩
        · cases h
      | closed c =>
        rw [ho] at h
        simp only at h
        split at h
        · rename_i R hR
          injection h with h
          subst h
          refine ⟨R.evs ++ [(.disconnect fd, [])], by simp only [Server.drop, afterRead, List.append_assoc], fun l2 hq => ?_⟩
          rw [List.append_assoc] at hq
          obtain ⟨g1, g2, g3⟩ := read_readmin hS (by rw [ho]; rfl) hR hq
          rw [g1, ho]
          simp only [g2]
          exact ⟨trivial, g3.2 _ _ _ rfl⟩
        · cases h
      | stopped c =>
        rw [ho] at h
        simp only at h
        split at h
        · rename_i R hR
          injection h with h
          subst h
          refine ⟨R.evs, rfl, fun l2 hq => ?_⟩
          obtain ⟨g1, g2, g3⟩ := read_readmin hS (by rw [ho]; rfl) hR hq
          rw [g1, ho]
          simp only [g2]
          exact ⟨trivial, g3⟩
        · cases h
    simp only [step] at h ⊢
    split at h
    · rename_i k hu hk
      cases r with
      | data d =>
        simp only at h ⊢
        split at h
        · cases h
        · rename_i hd
          simp only [if_neg hd]
          exact hread k h
      | _ => exact hread k h
    · cases h
  | writable fd as =>
    simp only [step] at h ⊢
    split at h
    · rename_i k hu hk
      injection h with h
      subst h
      exact ⟨[], (List.append_nil _).symm, fun l2 hq => ⟨by simp only [hu, hk], hq⟩⟩
    · cases h
  | hangup fd =>
    simp only [step] at h ⊢
    split at h
    · rename_i k hu hk
      injection h with h
      subst h
      exact ⟨_, rfl, fun l2 hq => ⟨by simp only [hu, hk], hq.2 _ _ _ rfl⟩⟩
    · cases h
  | tick us ans =>
    have hE : nodeStep (readmin q S) σ.node (.tick us) = nodeStep S σ.node (.tick us) := rfl
    simp only [step, hE] at h ⊢
    split at h
    · rename_i hu
      split at h
      · rename_i n1 sent st he
        injection h with h
        subst h
        exact ⟨_, rfl, fun l2 hq => ⟨by simp only [if_pos hu, he], hq.2 _ _ _ he⟩⟩
      · cases h
    · cases h
  | rotate u =>
    have hE : nodeStep (readmin q S) σ.node (.rotate u) = nodeStep S σ.node (.rotate u) := rfl
    simp only [step, hE] at h ⊢
    split at h
    · rename_i hu
      split at h
      · rename_i n1 sent st he
        injection h with h
        subst h
        exact ⟨_, rfl, fun l2 hq => ⟨by simp only [if_pos hu, he], hq.2 _ _ _ he⟩⟩
      · cases h
    · cases h
  | restart order =>
    have hE : nodeStep (readmin q S) σ.node (.restart order) = nodeStep S σ.node (.restart order) := C84_step hS hp trivial
    simp only [step, hE] at h ⊢
    split at h
    · rename_i n1 sent st he
      injection h with h
      subst h
      exact ⟨_, rfl, fun l2 hq => ⟨by simp only [he], hq.2 _ _ _ he⟩⟩
    · cases h

/-- **C84** for bytes: with any other password of administrators the server with its connections does the same, to the byte, as long as
    no client gives either password to AUTH. -/
theorem C84_wire_run_partial {σ σ' : Server} {evs : List Ev} (hS : S.adminpwd = some pwd) (hp : S.protect = false)
    (h : run S σ evs = some σ') :
    ∃ l, σ'.log = σ.log ++ l ∧ (UnadminRun S q σ.node l → run (readmin q S) σ evs = some σ') := by
  have : ∃ l, σ'.log = σ.log ++ l ∧ ∀ l2, UnadminRun S q σ.node (l ++ l2) → run (readmin q S) σ evs = some σ' := by
    induction evs generalizing σ with
    | nil =>
      simp only [run, Option.some.injEq] at h
      subst h
      exact ⟨[], (List.append_nil _).symm, fun _ _ => rfl⟩
    | cons ev evs ih =>
      simp only [run] at h
      split at h
      · rename_i σ1 h1
        obtain ⟨l1, e1, g1⟩ := step_readmin (q := q) hS hp h1
        obtain ⟨l2, e2, g2⟩ := ih h
        refine ⟨l1 ++ l2, by rw [e2, e1, List.append_assoc], fun l3 hq => ?_⟩
        rw [List.append_assoc] at hq
        obtain ⟨k1, k2⟩ := g1 _ hq
        simp only [run, k1]
        exact g2 l3 k2
      · cases h
  obtain ⟨l, e, g⟩ := this
  exact ⟨l, e, fun hq => g [] (by rw [List.append_nil]; exact hq)⟩

/-- The condition of `UnadminRun`, computed. -/
def unadminRunB (S : Settings) (q : Bytes) : Node → List (Event × List (Nat × Msg)) → Bool
  | _, [] => true
  | n, x :: l => unadminB S q n x.1 && (match nodeStep S n x.1 with
    | .ok n1 _ _ => unadminRunB S q n1 l
    | _ => true)

theorem unadminRunB_ok {n : Node} {l : List (Event × List (Nat × Msg))} (h : unadminRunB S q n l = true) : UnadminRun S q n l := by
  induction l generalizing n with
  | nil => trivial
  | cons x l ih =>
    simp only [unadminRunB, Bool.and_eq_true] at h
    refine ⟨unadminB_ok h.1, fun n1 sent st hs => ih ?_⟩
    have h2 := h.2
    rw [hs] at h2
    exact h2

/-- Client 5 guesses the password, cut in the middle of its requests, stores a value, and asks to be a mirror. -/
def exGuesses : List Ev :=
  [.accept 5 exMem, exRecv 5 1 "*2\r\n$4\r\nAUTH\r\n$5\r\ngue" [.took 50],
    exRecv 5 2 "ss\r\n*3\r\n$3\r\nSET\r\n$1\r\nk\r\n$1\r\nv\r\n*1\r\n$6\r\nMIRROR\r\n" [.took 50]]

/-- The process after these events. -/
def exGuessed : Server := (run exS (Server.new (exNode exS)) exGuesses).getD (Server.new (exNode exS))

set_option maxRecDepth 100000 in
/-- The case: client 5 is refused twice and its value is stored, and so it is with the password `other`. -/
theorem C84_wire_example : run exS (Server.new (exNode exS)) exGuesses = some exGuessed ∧
    UnadminRun exS (str "other") (exNode exS) exGuessed.log ∧
    run (readmin (str "other") exS) (Server.new (exNode exS)) exGuesses = some exGuessed ∧
    (exGuessed.links 5).map (fun k => k.out.delivered) = some (str "-Access denied\r\n$1\r\nk\r\n-Permission denied\r\n") := by
  have h1 : (run exS (Server.new (exNode exS)) exGuesses).isSome = true := by decide +kernel
  have h2 : unadminRunB exS (str "other") (exNode exS) exGuessed.log = true := by decide +kernel
  have hr : run exS (Server.new (exNode exS)) exGuesses = some exGuessed := by
    unfold exGuessed
    cases h : run exS (Server.new (exNode exS)) exGuesses with
    | none => rw [h] at h1; cases h1
    | some σ => rfl
  have hu : UnadminRun exS (str "other") (exNode exS) exGuessed.log := unadminRunB_ok h2
  obtain ⟨l, e, g⟩ := C84_wire_run_partial (q := str "other") (pwd := str "pw") rfl rfl hr
  have e0 : (Server.new (exNode exS)).log = [] := rfl
  rw [e0, List.nil_append] at e
  have hl : UnadminRun exS (str "other") (exNode exS) l := by rw [← e]; exact hu
  have hg := g hl
  exact ⟨hr, hu, hg, by decide +kernel⟩

/-- With the right password it differs: what client 5 is sent tells the two apart. -/
theorem C84_wire_given : ∃ evs,
    (run exS (Server.new (exNode exS)) evs).bind (fun σ => (σ.links 5).map (fun k => k.out.delivered)) = some (str "+OK\r\n") ∧
    (run (readmin (str "other") exS) (Server.new (exNode exS)) evs).bind (fun σ => (σ.links 5).map (fun k => k.out.delivered)) =
      some (str "-Access denied\r\n") :=
  ⟨[.accept 5 exMem, exRecv 5 1 "*2\r\n$4\r\nAUTH\r\n$2\r\npw\r\n" [.took 50]], by decide +kernel, by decide +kernel⟩

end Zdb.Server
