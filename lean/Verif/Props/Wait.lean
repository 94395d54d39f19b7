/-
C37: WAIT.
-/
import Verif.Lemmas.Waiting
import Verif.Props.Isolation
namespace Zdb

/-- C37, one event: a waiting client that does nothing itself is sent exactly what wakes it up, if anything does, and then
    waits no more; else it is sent nothing and still waits.  A client that does not wait is sent nothing. -/
theorem C37_one_event_partial {S : Settings} {n n' : Node} {ev : Event} {sent : List (Nat × Msg)} {st : Status}
    (hs : nodeStep S n ev = .ok n' sent st) {j : Nat} (hj : NotBy j ev) {w : Option Watch} (hw : Waits n j w) :
    match w.bind (fun w => wakeup n n' j w ev) with
    | some m => sentTo j sent = [m] ∧ Waits n' j none
    | none => sentTo j sent = [] ∧ Waits n' j w := by
  have none' : (∀ w', wakeup n n' j w' ev = none) → w.bind (fun w => wakeup n n' j w ev) = none := by
    intro hall
    cases w with
    | none => rfl
    | some w' => exact hall w'
  cases ev with
  | request fd e argv => exact request_waiting hs hj hw
  | connect fd =>
    rw [none' (fun _ => rfl)]
    simp only [nodeStep] at hs
    injection hs with h1 h2 _
    subst h1; subst h2
    obtain ⟨k, hk, hm, hw⟩ := hw
    exact ⟨rfl, k, by rw [getClient_put, if_neg (fun h => hj h.symm)]; exact hk, hm, hw⟩
  | disconnect fd =>
    rw [none' (fun _ => rfl)]
    simp only [nodeStep] at hs
    injection hs with h1 h2 _
    subst h1; subst h2
    obtain ⟨k, hk, hm, hw⟩ := hw
    exact ⟨rfl, k, by rw [getClient_put, if_neg (fun h => hj h.symm)]; exact hk, hm, hw⟩
  | rotate u =>
    rw [none' (fun _ => rfl)]
    simp only [nodeStep] at hs
    injection hs with h1 h2 _
    subst h1; subst h2
    obtain ⟨k, hk, hm, hw⟩ := hw
    exact ⟨rfl, k, hk, hm, hw⟩
  | restart order => exact absurd hj (by simp [NotBy])
  | tick us =>
    simp only [nodeStep] at hs
    injection hs with h1 h2 _
    subst h1; subst h2
    obtain ⟨k, hk, hm, rfl⟩ := hw
    have hsent : sentTo j (timeoutAll us 0 n.clients).2 = ((timeoutOne us k).2).toList := by
      rw [sentTo_timeoutAll us j n.clients 0]
      have : (n.clients[j - 0]?).join = some k := hk
      rw [this]
      simp
    have hget : getClient { n with clients := (timeoutAll us 0 n.clients).1 } j = some (timeoutOne us k).1 := by
      have hk' : (n.clients[j]?).join = some k := hk
      simp only [getClient]
      rw [timeoutAll_get]
      cases hx : n.clients[j]? with
      | none => rw [hx] at hk'; exact absurd hk' (by simp)
      | some x =>
        rw [hx] at hk'
        simp only [Option.join_some] at hk'
        subst hk'
        rfl
    rw [hsent]
    cases hkw : k.watching with
    | none =>
      have hto : timeoutOne us k = (k, none) := by simp [timeoutOne, hkw]
      rw [hto] at hget ⊢
      exact ⟨rfl, k, hget, hm, hkw⟩
    | some w =>
      simp only [Option.bind_some, wakeup]
      by_cases hd : deltaMs w.since us > w.timeout
      · rw [if_pos hd]
        have hto : timeoutOne us k = ({ k with watching := none }, some (.reply (.err "Timeout"))) := by simp [timeoutOne, hkw, hd]
        rw [hto] at hget ⊢
        exact ⟨rfl, _, hget, hm, rfl⟩
      · rw [if_neg hd]
        have hto : timeoutOne us k = (k, none) := by simp [timeoutOne, hkw, hd]
        rw [hto] at hget ⊢
        exact ⟨rfl, k, hget, hm, hkw⟩

/-- A client that neither waits nor does anything is sent nothing. -/
theorem idle_run {S : Settings} {n n' : Node} {l : List (Event × List (Nat × Msg))} (h : NodeRun S n l n') {j : Nat}
    (hj : ∀ x ∈ l, NotBy j x.1) (hw : Waits n j none) : l.flatMap (fun x => sentTo j x.2) = [] ∧ Waits n' j none := by
  induction h with
  | nil n => exact ⟨rfl, hw⟩
  | @cons n n1 n2 ev sent st l hg hs h ih =>
    obtain ⟨h1, h2⟩ := C37_one_event_partial hs (hj _ (List.mem_cons_self ..)) hw
    obtain ⟨h3, h4⟩ := ih (fun x hx => hj x (List.mem_cons_of_mem _ hx)) h2
    exact ⟨by rw [List.flatMap_cons, h1, h3]; rfl, h4⟩

/-- C37, any execution: a waiting client that does nothing itself is sent the first message that wakes it up, and nothing
    else, ever. -/
theorem C37_woken_once_partial {S : Settings} {n n' : Node} {l : List (Event × List (Nat × Msg))} (h : NodeRun S n l n') {j : Nat}
    (hj : ∀ x ∈ l, NotBy j x.1) {w : Watch} (hw : Waits n j (some w)) :
    ∃ m, FirstWake S j w n l m ∧ l.flatMap (fun x => sentTo j x.2) = m.toList ∧ Waits n' j (if m.isSome then none else some w) := by
  induction h with
  | nil n => exact ⟨none, .nil _, rfl, hw⟩
  | @cons n n1 n2 ev sent st l hg hs h ih =>
    have h1 := C37_one_event_partial hs (hj _ (List.mem_cons_self ..)) hw
    rw [Option.bind_some] at h1
    cases hm : wakeup n n1 j w ev with
    | none =>
      rw [hm] at h1
      obtain ⟨m, a, b, c⟩ := ih (fun x hx => hj x (List.mem_cons_of_mem _ hx)) h1.2
      exact ⟨m, .later hs hm a, by rw [List.flatMap_cons, h1.1, b]; rfl, c⟩
    | some m =>
      rw [hm] at h1
      obtain ⟨a, b⟩ := idle_run h (fun x hx => hj x (List.mem_cons_of_mem _ hx)) h1.2
      exact ⟨some m, .now hs hm, by rw [List.flatMap_cons, h1.1, a]; rfl, b⟩

/-- C37: WAIT makes the client wait for the command named, as the dispatcher reads names, from now on. -/
theorem C37_wait_starts {S : Settings} {n n' : Node} {fd : Nat} {e : Env} {argv : List Bytes} {sent : List (Nat × Msg)} {st : Status}
    (hs : nodeStep S n (.request fd e argv) = .ok n' sent st) {p : Picked} (hp : pick n fd e argv = some p) (hh : p.h = .wait)
    {a key : Bytes} (ha : p.argv = [a, key]) {i : Nat} (hi : lookupCmd key = some i) (hm : p.c.mirror = false) :
    sentTo fd sent = [] ∧ Waits n' fd (some { cmd := i, since := p.e.us, timeout := 5000 }) := by
  obtain ⟨n1, c1, m, i', -, -, hrun, hn, hsent⟩ := (request_ran hs hp).ex
  rw [hh, ha] at hrun
  simp only [runHandler, cmdWait, hi, say] at hrun
  rw [if_neg (by decide)] at hrun
  injection hrun with h1 h2 h3 h4
  subst h1; subst h2; subst h3
  refine ⟨?_, ?_⟩
  · rw [hsent]
    simp only [Option.toList_none, List.map_nil, List.nil_append]
    unfold post
    simp only [sentTo, List.filterMap_eq_nil_iff]
    rintro ⟨x, y⟩ hx
    have := (notifyAll_mem _ _ _ _ _ _ _ _).1 hx
    obtain ⟨_, _, -, -, h3, -⟩ := this
    simp [h3]
  · rw [hn]
    exact ⟨_, post_me _ _ _ _, hm, rfl⟩

/-- The time that passes between two instants in microseconds, in milliseconds, as the program computes it, is right up to
    the rounding: a client in WAIT never gets its timeout too early, and gets it at the first check made one millisecond
    after it passed. -/
theorem C37_timeout {w : Watch} {us : Nat} (h1 : w.since ≤ us) (h2 : us < 2 ^ 63) :
    (deltaMs w.since us > w.timeout → us - w.since > w.timeout * 1000) ∧
    (us - w.since ≥ (w.timeout + 1) * 1000 → deltaMs w.since us > w.timeout) := by
  unfold deltaMs
  generalize w.since = a at *
  generalize hd : ((us % 1000000 : Nat) - (a % 1000000 : Nat) : Int).tdiv 1000 = d
  have hb := Int.mul_tdiv_add_tmod ((us % 1000000 : Nat) - (a % 1000000 : Nat) : Int) 1000
  rw [hd] at hb
  have hr1 : -1000 < ((us % 1000000 : Nat) - (a % 1000000 : Nat) : Int).tmod 1000 := by
    have := Int.lt_tmod_of_pos ((us % 1000000 : Nat) - (a % 1000000 : Nat) : Int) (b := 1000) (by decide); omega
  have hr2 : ((us % 1000000 : Nat) - (a % 1000000 : Nat) : Int).tmod 1000 < 1000 :=
    Int.tmod_lt_of_pos _ (by decide)
  generalize ((us % 1000000 : Nat) - (a % 1000000 : Nat) : Int).tmod 1000 = rr at *
  have hx : 0 ≤ (((us / 1000000 : Nat) - (a / 1000000 : Nat) : Int) * 1000 + d) := by omega
  have hy : (((us / 1000000 : Nat) - (a / 1000000 : Nat) : Int) * 1000 + d) < 2 ^ 64 := by omega
  rw [Int.emod_eq_of_lt hx hy]
  constructor <;> intro h <;> omega

/-- Client 7 waits for SET in `foo`. -/
def exWaiting : List Event := exEvents ++ [.connect 7, .request 7 (exE 4) [str "SELECT", str "foo"],
  .request 7 (exE 5) [str "WAIT", str "SET"]]

set_option maxRecDepth 100000 in
/-- A concrete case: GET in the same namespace and SET in another one do not wake it up; SET does. -/
theorem C37_example : ranSent exS (exWaiting ++
    [.request 6 (exE 6) [str "GET", str "k"], .request 5 (exE 7) [str "SET", str "x", str "y"],
     .request 6 (exE 8) [str "SET", str "x", str "y"], .request 6 (exE 9) [str "SET", str "z", str "y"]]) =
    ranSent exS exWaiting ++ [[(6, .reply (.bulk (str "v")))], [(5, .reply (.bulk (str "x")))],
     [(6, .reply (.bulk (str "x"))), (7, .notice (str "SET"))], [(6, .reply (.bulk (str "z")))]] := rfl

set_option maxRecDepth 100000 in
/-- C37 refuted: a SET that fails wakes it up as well. -/
theorem C37_refuted : ranSent exS (exWaiting ++ [.request 6 (exE 6) [str "SET", str "x"]]) =
    ranSent exS exWaiting ++ [[(6, .reply errArgs), (7, .notice (str "SET"))]] := rfl

set_option maxRecDepth 100000 in
/-- C37 refuted: a mirror in WAIT is sent no notice. -/
theorem C37_mirror_refuted : ranSent exS (exEvents ++ [.request 5 (exE 4) [str "SELECT", str "foo"],
     .request 5 (exE 5) [str "MIRROR"], .request 5 (exE 6) [str "WAIT", str "SET"], .request 6 (exE 8) [str "SET", str "x", str "y"]]) =
    ranSent exS exEvents ++ [[(5, .reply .ok)], [(5, .reply (.simple "Starting mirroring"))], [],
     [(6, .reply (.bulk (str "x")))]] := rfl

end Zdb
