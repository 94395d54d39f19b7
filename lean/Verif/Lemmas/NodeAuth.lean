/-
Challenges sent to clients, and the one a client holds.
-/
import Verif.Lemmas.NodeClient
import Verif.Spec.Rights
namespace Zdb

/-- Only AUTH sends a challenge, and it is the one the client then holds. -/
theorem handler_challenge {S : Settings} {e : Env} {n n1 : Node} {c c1 : Client} {r : NsRec} {h : Handler} {argv : List Bytes}
    {x : Bytes} {st : Status} (hr : runHandler S e n c r h argv = .done n1 c1 (some (.challenge x)) st) :
    h = .auth ∧ c1.nonce = some x := by
  have bad : ∀ (c0 : Client) (y : Reply), say n c0 (some (.reply y)) = .done n1 c1 (some (.challenge x)) st → False := by
    intro c0 y hs
    obtain ⟨-, -, h3, -⟩ := say_inj hs
    simp at h3
  have he := runHandler_eff hr
  cases h with
  | ds d => cases he with | same _ _ hd => exact absurd rfl (hd d)
  | nsnew => cases he with | same _ _ _ hq => obtain ⟨s, hs⟩ := hq rfl; simp [errMsg] at hs
  | nsdel => cases he with | same _ _ _ hq => obtain ⟨s, hs⟩ := hq rfl; simp [errMsg] at hs
  | nsset => cases he with | same _ _ _ hq => obtain ⟨s, hs⟩ := hq rfl; simp [errMsg] at hs
  | reload => cases he with | same _ _ _ hq => obtain ⟨s, hs⟩ := hq rfl; simp [errMsg] at hs
  | flush => cases he with | same _ _ _ hq => obtain ⟨s, hs⟩ := hq rfl; simp [errMsg] at hs
  | asterisk => exact absurd hr (fun h => bad _ _ h)
  | wait =>
    exfalso
    simp only [runHandler, cmdWait, sayErr, errMsg] at hr
    repeat' split at hr
    all_goals first
      | exact bad _ _ hr
      | (obtain ⟨-, -, h3, -⟩ := say_inj hr; simp at h3)
  | mirror => exfalso; simp only [runHandler] at hr; split at hr <;> exact bad _ _ hr
  | master => exfalso; simp only [runHandler] at hr; split at hr <;> exact bad _ _ hr
  | hooks =>
    exfalso; simp only [runHandler] at hr; split at hr
    · obtain ⟨-, -, h3, -⟩ := say_inj hr; simp at h3
    · exact bad _ _ hr
  | ping => exact absurd hr (fun h => bad _ _ h)
  | time => exact absurd hr (fun h => bad _ _ h)
  | info => exfalso; simp only [runHandler] at hr; obtain ⟨-, -, h3, -⟩ := say_inj hr; simp at h3
  | stop => exfalso; simp only [runHandler] at hr; injection hr with _ _ h3 _; simp at h3
  | nslist => exfalso; simp only [runHandler, cmdNslist] at hr; obtain ⟨-, -, h3, -⟩ := say_inj hr; simp at h3
  | nsinfo =>
    exfalso
    simp only [runHandler, cmdNsinfo, sayErr, errMsg] at hr
    repeat' split at hr
    all_goals first
      | exact bad _ _ hr
      | (obtain ⟨-, -, h3, -⟩ := say_inj hr; simp at h3)
  | select =>
    exfalso
    simp only [runHandler, cmdSelect, sayErr, sayOk, errMsg] at hr
    repeat' split at hr
    all_goals exact bad _ _ hr
  | auth =>
    refine ⟨rfl, ?_⟩
    have hc := runHandler_client hr
    simp only [runHandler, cmdAuth, cmdAuthRegular, cmdAuthSecure, sayErr, sayOk, errMsg] at hr
    repeat' split at hr
    all_goals first
      | exact absurd hr (fun h => bad _ _ h)
      | (obtain ⟨-, h2, h3, -⟩ := say_inj hr; simp at h3; rw [h2, h3])

theorem notify_no_challenge (e : Env) (me : Nat) (ns : Option Nat) (i j : Nat) (l : List (Option Client)) {fd : Nat} {x : Bytes} :
    (fd, Msg.challenge x) ∉ (notifyAll e me ns i j l).2 := by
  rw [notifyAll_mem]
  rintro ⟨_, k, -, -, -, h⟩
  unfold notifyOne at h
  split at h
  · split at h
    · simp at h
    · simp at h
  · split at h
    · simp at h
    · split at h <;> simp at h

theorem post_no_challenge (e : Env) (fd : Nat) (n : Node) (c : Client) {fd' : Nat} {x : Bytes} :
    (fd', Msg.challenge x) ∉ (post e fd n c).2 := by
  unfold post
  cases c.executed with
  | none => simp
  | some i => exact notify_no_challenge _ _ _ _ _ _

/-- A request answered with a challenge: the client holds it. -/
theorem request_challenge {S : Settings} {n n' : Node} {fd : Nat} {e : Env} {argv : List Bytes} {sent : List (Nat × Msg)}
    {st : Status} (h : request S n fd e argv = .ok n' sent st) {y : Nat} {x : Bytes} (hx : (y, Msg.challenge x) ∈ sent) :
    ∃ c', getClient n' fd = some c' ∧ c'.nonce = some x := by
  obtain ⟨c, hc, -, hcase⟩ := request_cases h
  rcases hcase with ⟨-, -, rfl, -⟩ | ⟨e', argv', n1, c1, m, hp, hd, rfl, rfl⟩
  · simp at hx
  · rcases List.mem_append.1 hx with hx | hx
    · cases m with
      | none => simp at hx
      | some m =>
        simp only [Option.toList_some, List.map_cons, List.map_nil, List.mem_singleton, Prod.mk.injEq] at hx
        obtain ⟨-, rfl⟩ := hx
        refine ⟨c1, post_me _ _ _ _, ?_⟩
        rcases dispatch_cases hd with ⟨_, _, _, _, h3⟩ | ⟨u, key, rest, hu, ha, hcase⟩
        · simp [errMsg] at h3
        · rcases hcase with ⟨_, _, _, _, h3⟩ | ⟨i, r, name, hh, hl, hr, hk, hrun⟩
          · simp [errMsg] at h3
          · exact (handler_challenge hrun).2
    · exact absurd hx (post_no_challenge _ _ _ _)

/-- The challenge a client holds after an event is the last one sent to it. -/
theorem challenge_step {S : Settings} {n n' : Node} {ev : Event} {sent : List (Nat × Msg)} {st : Status}
    (hs : nodeStep S n ev = .ok n' sent st) {fd : Nat} {a : Option Bytes}
    (ha : ∀ c x, getClient n fd = some c → c.nonce = some x → a = some x) :
    ∀ c x, getClient n' fd = some c → c.nonce = some x → challengeOf fd a (ev, sent) = some x := by
  intro c' x hc' hx
  have main : (∀ e argv, ev = .request fd e argv → ∀ y z, (y, Msg.challenge z) ∉ sent) → (ev ≠ .connect fd) → a = some x := by
    intro hnone hconn
    rcases client_step hs hc' with ⟨h1, -⟩ | ⟨c, hc, hr | hb⟩
    · exact absurd h1 hconn
    · obtain ⟨e, argv, p, i, m, n1, rest, rfl, hp, hpc, -, -, hce, hsent, -⟩ := hr.ex
      generalize p.h = ph at hce
      cases hce with
      | challenge => exact absurd (by rw [hsent]; simp) (hnone e argv rfl fd p.e.nonce)
      | secure => simp at hx
      | refused => simp at hx
      | _ => exact ha c x hc hx
    · exact ha c x hc (by rw [← hb.nonce]; exact hx)
  cases ev with
  | connect fd1 =>
    by_cases h1 : fd1 = fd
    · subst h1
      simp only [nodeStep] at hs; injection hs with h1 _ _; subst h1
      rw [getClient_put, if_pos rfl] at hc'
      injection hc' with hc'; subst hc'
      simp [newClient] at hx
    · simp only [challengeOf, if_neg h1]
      exact main (by simp) (by simpa using h1)
  | disconnect fd1 =>
    by_cases h1 : fd1 = fd
    · subst h1
      simp only [nodeStep] at hs
      injection hs with h1 _ _; subst h1
      rw [getClient_put, if_pos rfl] at hc'
      exact absurd hc' (by simp)
    · simp only [challengeOf, if_neg h1]
      exact main (by simp) (by simp)
  | restart order =>
    simp only [nodeStep] at hs
    split at hs
    · rename_i n2 hn2
      injection hs with h1 _ _; subst h1
      have := restart_clients hn2
      unfold getClient at hc'; rw [this] at hc'; simp at hc'
    · exact absurd hs (by simp)
  | tick us => exact main (by simp) (by simp)
  | rotate u => exact main (by simp) (by simp)
  | request fd1 e argv =>
    by_cases h1 : fd1 = fd
    · subst h1
      simp only [challengeOf, if_true]
      split
      · rename_i y z rest
        obtain ⟨c2, hc2, hz⟩ := request_challenge (by exact hs) (y := y) (x := z) (List.mem_cons_self ..)
        rw [hc2] at hc'; injection hc' with hc'; subst hc'
        rw [hz] at hx; exact hx
      · rename_i hno
        refine main ?_ (by simp)
        intro e' argv' he y z hz
        obtain ⟨c, hc, -, hcase⟩ := request_cases (by exact hs)
        rcases hcase with ⟨-, -, rfl, -⟩ | ⟨e2, argv2, n1, c1, m, hp, hd, rfl, rfl⟩
        · simp at hz
        · rcases List.mem_append.1 hz with hz | hz
          · cases m with
            | none => simp at hz
            | some m =>
              simp only [Option.toList_some, List.map_cons, List.map_nil, List.mem_singleton, Prod.mk.injEq] at hz
              obtain ⟨-, rfl⟩ := hz
              exact hno _ _ _ rfl
          · exact absurd hz (post_no_challenge _ _ _ _)
    · simp only [challengeOf, if_neg h1]
      refine main ?_ (by simp)
      intro e' argv' he
      injection he with he; exact absurd he h1

theorem challenge_run {S : Settings} {n n' : Node} {l : List (Event × List (Nat × Msg))} (h : NodeRun S n l n') {fd : Nat} :
    ∀ {a : Option Bytes}, (∀ c x, getClient n fd = some c → c.nonce = some x → a = some x) →
    ∀ c x, getClient n' fd = some c → c.nonce = some x → l.foldl (challengeOf fd) a = some x := by
  induction h with
  | nil => intro a ha; exact ha
  | cons hg hs h ih => intro a ha; exact ih (challenge_step hs ha)

/-- The challenge a client holds is the last one sent to this connection. -/
theorem held_challenge {S : Settings} {n0 n : Node} {l : List (Event × List (Nat × Msg))} (h0 : Started S n0) (h : NodeRun S n0 l n)
    {fd : Nat} {c : Client} (hc : getClient n fd = some c) {x : Bytes} (hx : c.nonce = some x) : lastChallenge fd l = some x := by
  refine challenge_run h ?_ c x hc hx
  intro c0 y hc0
  obtain ⟨u, h0⟩ := h0
  have h1 := boot_clients h0
  unfold getClient at hc0; rw [h1] at hc0; simp at hc0

end Zdb
