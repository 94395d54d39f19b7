/-
What an event does to a client.
-/
import Verif.Lemmas.NodeReq
namespace Zdb

/-- Events of others do not touch rights; a deleted namespace is left. -/
structure Bystander (c c' : Client) : Prop where
  admin : c'.admin = c.admin
  writable : c'.writable = c.writable
  master : c'.master = c.master
  mirror : c'.mirror = c.mirror
  nonce : c'.nonce = c.nonce
  ns : c'.ns = c.ns ∨ c'.ns = none
  watching : c'.watching = c.watching ∨ c'.watching = none

theorem Bystander.refl (c : Client) : Bystander c c := ⟨rfl, rfl, rfl, rfl, rfl, Or.inl rfl, Or.inl rfl⟩

theorem notify_bystander (e : Env) (ns : Option Nat) (i : Nat) (k : Client) : Bystander k (notifyOne e ns i k).1 := by
  rcases notifyOne_client e ns i k with h | h <;> rw [h]
  · exact .refl _
  · exact ⟨rfl, rfl, rfl, rfl, rfl, Or.inl rfl, Or.inr rfl⟩

theorem detach_bystander (u : Nat) (k : Client) : Bystander k (if k.ns = some u then { k with ns := none } else k) := by
  split
  · exact ⟨rfl, rfl, rfl, rfl, rfl, Or.inr rfl, Or.inl rfl⟩
  · exact .refl _

theorem Bystander.trans {a b c : Client} (h1 : Bystander a b) (h2 : Bystander b c) : Bystander a c where
  admin := h2.admin.trans h1.admin
  writable := h2.writable.trans h1.writable
  master := h2.master.trans h1.master
  mirror := h2.mirror.trans h1.mirror
  nonce := h2.nonce.trans h1.nonce
  ns := by
    rcases h2.ns with h | h
    · rcases h1.ns with h' | h'
      · exact Or.inl (h.trans h')
      · exact Or.inr (h.trans h')
    · exact Or.inr h
  watching := by
    rcases h2.watching with h | h
    · rcases h1.watching with h' | h'
      · exact Or.inl (h.trans h')
      · exact Or.inr (h.trans h')
    · exact Or.inr h

/-- Clients other than the one running a handler. -/
theorem eff_clients {S : Settings} {e : Env} {n n1 : Node} {c : Client} {r : NsRec} {argv : List Bytes} {h : Handler}
    {m : Option Msg} (he : NodeEff S e n c r argv h n1 m) (fd : Nat) :
    ∃ f : Client → Client, getClient n1 fd = (getClient n fd).map f ∧ ∀ k, Bystander k (f k) := by
  have same : ∀ n2 : Node, n2.clients = n.clients →
      ∃ f : Client → Client, getClient n2 fd = (getClient n fd).map f ∧ ∀ k, Bystander k (f k) :=
    fun n2 h2 => ⟨id, by unfold getClient; rw [h2]; simp, fun k => .refl k⟩
  cases he with
  | same => exact same _ rfl
  | ds => exact same _ rfl
  | nsnew => exact same _ rfl
  | nsdel name x =>
    exact ⟨fun k => if k.ns = some x.uid then { k with ns := none } else k, getClient_detach x.uid n fd,
      fun k => detach_bystander _ k⟩
  | nsset => exact same _ rfl
  | reload => exact same _ rfl
  | flush => exact same _ rfl

/-- The client whose request ran a handler. -/
structure Runs (S : Settings) (n : Node) (fd : Nat) (ev : Event) (sent : List (Nat × Msg)) (st : Status) (c c' : Client) : Prop where
  ex : ∃ (e : Env) (argv : List Bytes) (p : Picked) (i : Nat) (m : Option Msg) (n1 : Node) (rest : List (Nat × Msg)),
    ev = .request fd e argv ∧ pick n fd e argv = some p ∧ p.c = c ∧ handlers[i]?.map (·.2) = some p.h ∧
    runHandler S p.e n { c with executed := some i } p.r p.h p.argv = .done n1 c' m st ∧
    ClientEff S p.e n { c with executed := some i } p.argv p.h c' m ∧ sent = m.toList.map (fun m => (fd, m)) ++ rest ∧
    rest = (post p.e fd (putClient n1 fd (some c')) c').2

theorem boot_clients {S : Settings} {d : Dir} {l : List Dir} {n' : Node} (h : boot S d l = some n') : n'.clients = [] := by
  unfold boot at h
  split at h
  · exact absurd h (by simp)
  · split at h
    · injection h with h; rw [← h]
    · exact absurd h (by simp)

theorem restart_clients {S : Settings} {n n' : Node} {order : List Nat} (h : restartNode S n order = some n') : n'.clients = [] := by
  unfold restartNode at h
  split at h
  · exact boot_clients h
  · exact absurd h (by simp)

/-- A client after an event: it has just connected, its own request ran a handler, or nothing happened to it. -/
theorem client_step {S : Settings} {n n' : Node} {ev : Event} {sent : List (Nat × Msg)} {st : Status}
    (hs : nodeStep S n ev = .ok n' sent st) {fd : Nat} {c' : Client} (hc' : getClient n' fd = some c') :
    (ev = .connect fd ∧ c' = newClient S n) ∨
    ∃ c, getClient n fd = some c ∧ (Runs S n fd ev sent st c c' ∨ Bystander c c') := by
  cases ev with
  | connect fd1 =>
    simp only [nodeStep] at hs
    injection hs with h1 _ _
    subst h1
    rw [getClient_put] at hc'
    split at hc'
    · rename_i h; subst h; injection hc' with hc'; exact Or.inl ⟨rfl, hc'.symm⟩
    · exact Or.inr ⟨c', hc', Or.inr (.refl _)⟩
  | disconnect fd1 =>
    simp only [nodeStep] at hs
    injection hs with h1 _ _
    subst h1
    rw [getClient_put] at hc'
    split at hc'
    · exact absurd hc' (by simp)
    · exact Or.inr ⟨c', hc', Or.inr (.refl _)⟩
  | tick us =>
    simp only [nodeStep] at hs
    injection hs with h1 _ _
    subst h1
    right
    simp only [getClient] at hc'
    rw [timeoutAll_get] at hc'
    cases hg : n.clients[fd]? with
    | none => rw [hg] at hc'; exact absurd hc' (by simp)
    | some x =>
      cases x with
      | none => rw [hg] at hc'; exact absurd hc' (by simp)
      | some k =>
        rw [hg] at hc'
        simp only [Option.map_some, Option.join_some, Option.some.injEq] at hc'
        refine ⟨k, by simp [getClient, hg], Or.inr ?_⟩
        rw [← hc']
        unfold timeoutOne
        split
        · split
          · exact ⟨rfl, rfl, rfl, rfl, rfl, Or.inl rfl, Or.inr rfl⟩
          · exact .refl _
        · exact .refl _
  | rotate u =>
    simp only [nodeStep] at hs
    injection hs with h1 _ _
    subst h1
    exact Or.inr ⟨c', hc', Or.inr (.refl _)⟩
  | restart order =>
    simp only [nodeStep] at hs
    cases hr : restartNode S n order with
    | none => rw [hr] at hs; exact absurd hs (by simp)
    | some n1 =>
      rw [hr] at hs
      injection hs with h1 _ _
      subst h1
      unfold getClient at hc'
      rw [restart_clients hr] at hc'
      exact absurd hc' (by simp)
  | request fd1 e argv =>
    simp only [nodeStep] at hs
    right
    obtain ⟨c, hc, -, hcase⟩ := request_cases hs
    rcases hcase with ⟨-, rfl, -, -⟩ | ⟨e', argv', n1, c1, m, hp, hd, rfl, hsent⟩
    · exact ⟨c', hc', Or.inr (.refl _)⟩
    · rw [post_get, getClient_put] at hc'
      have other : fd ≠ fd1 → (∃ f : Client → Client, getClient n1 fd = (getClient n fd).map f ∧ ∀ k, Bystander k (f k)) →
          ∃ c, getClient n fd = some c ∧ (Runs S n fd (.request fd1 e argv) sent st c c' ∨ Bystander c c') := by
        intro hne ⟨f, hf, hb⟩
        rw [if_neg hne, hf] at hc'
        cases hk : getClient n fd with
        | none => rw [hk] at hc'; exact absurd hc' (by simp)
        | some k =>
          rw [hk] at hc'
          refine ⟨k, rfl, Or.inr ?_⟩
          simp only [Option.map_some, Option.some.injEq] at hc'
          rw [← hc']
          cases c1.executed with
          | none => exact hb k
          | some i => simp only [hne, if_false]; exact (hb k).trans (notify_bystander _ _ _ _)
      have me : fd = fd1 → c' = c1 := by
        intro he
        rw [if_pos he] at hc'
        simp only [Option.map_some, Option.some.injEq] at hc'
        rw [← hc']
        split
        · rfl
        · simp [he]
      rcases dispatch_cases hd with ⟨hu, rfl, rfl, -, -⟩ | ⟨u, key, rest, hu, ha, hcase⟩
      · by_cases he : fd = fd1
        · rw [me he]; subst he; exact ⟨c1, hc, Or.inr (.refl _)⟩
        · exact other he ⟨id, by simp, fun k => .refl k⟩
      · rcases hcase with ⟨hl, rfl, rfl, -, -⟩ | ⟨i, r, name, hh, hl, hr, hi, hrun⟩
        · by_cases he : fd = fd1
          · rw [me he]; subst he; exact ⟨c, hc, Or.inr ⟨rfl, rfl, rfl, rfl, rfl, Or.inl rfl, Or.inl rfl⟩⟩
          · exact other he ⟨id, by simp, fun k => .refl k⟩
        · by_cases he : fd = fd1
          · rw [me he]; subst he
            refine ⟨c, hc, Or.inl ⟨e, argv, ⟨c, r, hh, e', argv'⟩, i, m, n1, _, rfl, pick_of hc hp hu ha hl hr hi, rfl, by rw [hi]; rfl, hrun,
              runHandler_client hrun, hsent, rfl⟩⟩
          · exact other he (eff_clients (runHandler_eff hrun) fd)

/-- A connection that stays is known afterwards. -/
theorem client_kept {S : Settings} {n n1 : Node} {ev : Event} {sent : List (Nat × Msg)} {st : Status}
    (hs : nodeStep S n ev = .ok n1 sent st) {fd : Nat} (hstay : Stays fd ev) {c : Client} (hc : getClient n fd = some c) :
    ∃ c1, getClient n1 fd = some c1 := by
  cases ev with
  | connect fd1 =>
    simp only [nodeStep] at hs; injection hs with h1 _ _; subst h1
    rw [getClient_put, if_neg (fun hh => hstay hh.symm)]; exact ⟨c, hc⟩
  | disconnect fd1 =>
    simp only [nodeStep] at hs; injection hs with h1 _ _; subst h1
    rw [getClient_put, if_neg (fun hh => hstay hh.symm)]; exact ⟨c, hc⟩
  | restart => exact absurd hstay (by simp [Stays])
  | rotate u => simp only [nodeStep] at hs; injection hs with h1 _ _; subst h1; exact ⟨c, hc⟩
  | tick us =>
    simp only [nodeStep] at hs; injection hs with h1 _ _; subst h1
    simp only [getClient]
    rw [timeoutAll_get]
    unfold getClient at hc
    cases hg : n.clients[fd]? with
    | none => rw [hg] at hc; exact absurd hc (by simp)
    | some x =>
      rw [hg] at hc
      simp only [Option.join_some] at hc
      subst hc
      exact ⟨_, rfl⟩
  | request fd1 e argv =>
    simp only [nodeStep] at hs
    obtain ⟨c0, hc0, -, hcase⟩ := request_cases hs
    rcases hcase with ⟨-, rfl, -, -⟩ | ⟨e', argv', n3, c1, m, hp, hd, hn', -⟩
    · exact ⟨c, hc⟩
    · have hc3 : ∃ c3, getClient n3 fd = some c3 := by
        rcases dispatch_cases hd with ⟨-, rfl, -⟩ | ⟨u, key, rest, -, -, hcase⟩
        · exact ⟨c, hc⟩
        · rcases hcase with ⟨-, rfl, -⟩ | ⟨i, r, name, hh, -, -, -, hrun⟩
          · exact ⟨c, hc⟩
          · obtain ⟨f, hf, -⟩ := eff_clients (runHandler_eff hrun) fd
            rw [hf, hc]; exact ⟨_, rfl⟩
      obtain ⟨c3, hc3⟩ := hc3
      rw [hn', post_get, getClient_put]
      by_cases hfd : fd = fd1
      · rw [if_pos hfd]; exact ⟨_, rfl⟩
      · rw [if_neg hfd, hc3]; exact ⟨_, rfl⟩

end Zdb
