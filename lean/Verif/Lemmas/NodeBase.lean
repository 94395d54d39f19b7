/-
The lists of namespaces and clients.
-/
import Verif.Model.Node
namespace Zdb

/-- Existing namespaces. -/
def recs (n : Node) : List NsRec := n.slots.filterMap id

theorem mem_recs {n : Node} {r : NsRec} : r ∈ recs n ↔ some r ∈ n.slots := by
  simp [recs, List.mem_filterMap]

theorem nsIter_eq {d : NsRec} {l : List (Option NsRec)} : nsIter (some d :: l) = d :: l.filterMap id := rfl

theorem nsIter_recs {n : Node} {d : NsRec} {l : List (Option NsRec)} (h : n.slots = some d :: l) :
    nsIter n.slots = recs n := by
  unfold recs; rw [h]; rfl

theorem nsGet_some {n : Node} {name : Bytes} {r : NsRec} (h : nsGet n name = some r) :
    r ∈ recs n ∧ r.conf.name = name := by
  unfold nsGet at h
  have h1 := List.mem_of_find?_eq_some h
  have h2 := List.find?_some h
  simp only [beq_iff_eq] at h2
  refine ⟨?_, h2⟩
  unfold recs
  cases hs : n.slots with
  | nil => rw [hs] at h1; simp [nsIter] at h1
  | cons x l =>
    rw [hs] at h1
    cases x with
    | none => simp [nsIter] at h1
    | some d => exact h1

theorem nsDeref_some {n : Node} {u : Nat} {r : NsRec} (h : nsDeref n u = some r) : r ∈ recs n ∧ r.uid = u := by
  unfold nsDeref at h
  exact ⟨List.mem_of_find?_eq_some h, by simpa using List.find?_some h⟩

theorem nsDeref_isSome {n : Node} {u : Nat} : (nsDeref n u).isSome ↔ ∃ r ∈ recs n, r.uid = u := by
  unfold nsDeref recs
  rw [List.find?_isSome]
  simp

theorem find_unique {l : List NsRec} (hn : (l.map (·.uid)).Nodup) {r : NsRec} (h : r ∈ l) :
    l.find? (fun x => x.uid == r.uid) = some r := by
  induction l with
  | nil => simp at h
  | cons x l ih =>
    simp only [List.map_cons, List.nodup_cons] at hn
    rcases List.mem_cons.1 h with rfl | h
    · simp
    · have : (x.uid == r.uid) = false := by
        simp only [beq_eq_false_iff_ne]
        intro hh; exact hn.1 (hh ▸ List.mem_map.2 ⟨r, h, rfl⟩)
      rw [List.find?_cons, this]; exact ih hn.2 h

theorem nsDeref_mem {n : Node} (hn : ((recs n).map (·.uid)).Nodup) {r : NsRec} (h : r ∈ recs n) :
    nsDeref n r.uid = some r := find_unique hn h

theorem nsDeref_iff {n : Node} (hn : ((recs n).map (·.uid)).Nodup) {r : NsRec} {u : Nat} :
    nsDeref n u = some r ↔ r ∈ recs n ∧ r.uid = u :=
  ⟨nsDeref_some, fun ⟨h1, h2⟩ => h2 ▸ nsDeref_mem hn h1⟩

theorem uid_inj {l : List NsRec} (hn : (l.map (·.uid)).Nodup) {r r' : NsRec} (h : r ∈ l) (h' : r' ∈ l)
    (he : r.uid = r'.uid) : r = r' := by
  have h1 := find_unique hn h
  have h2 := find_unique hn h'
  rw [← he, h1] at h2
  exact Option.some.inj h2

/-! ### updating -/

theorem recs_nsUpdate (n : Node) (u : Nat) (f : NsRec → NsRec) :
    recs (nsUpdate n u f) = (recs n).map (fun r => if r.uid == u then f r else r) := by
  unfold recs nsUpdate
  simp only
  induction n.slots with
  | nil => rfl
  | cons x l ih =>
    cases x with
    | none => exact ih
    | some y => simp only [List.map_cons, List.filterMap_cons, Option.map_some, id_eq, ih]

theorem nsUpdate_br (n : Node) (u : Nat) (f : NsRec → NsRec) : (nsUpdate n u f).br = n.br := rfl
theorem nsUpdate_clients (n : Node) (u : Nat) (f : NsRec → NsRec) : (nsUpdate n u f).clients = n.clients := rfl
theorem nsUpdate_effective (n : Node) (u : Nat) (f : NsRec → NsRec) : (nsUpdate n u f).effective = n.effective := rfl
theorem nsUpdate_head {n : Node} {d : NsRec} {l : List (Option NsRec)} (h : n.slots = some d :: l) (u : Nat)
    (f : NsRec → NsRec) : (nsUpdate n u f).slots =
      some (if d.uid == u then f d else d) :: l.map (Option.map (fun r => if r.uid == u then f r else r)) := by
  unfold nsUpdate; simp [h]

theorem mem_recs_update {n : Node} {u : Nat} {f : NsRec → NsRec} {r : NsRec} :
    r ∈ recs (nsUpdate n u f) ↔ (∃ x ∈ recs n, x.uid = u ∧ r = f x) ∨ (r ∈ recs n ∧ r.uid ≠ u) := by
  rw [recs_nsUpdate, List.mem_map]
  constructor
  · rintro ⟨x, hx, rfl⟩
    by_cases h : x.uid = u
    · exact Or.inl ⟨x, hx, h, by simp [h]⟩
    · have : (x.uid == u) = false := by simp [h]
      right; simp only [this]; exact ⟨hx, h⟩
  · rintro (⟨x, hx, h, rfl⟩ | ⟨h, hu⟩)
    · exact ⟨x, hx, by simp [h]⟩
    · refine ⟨r, h, ?_⟩
      have : (r.uid == u) = false := by simp [hu]
      simp [this]

theorem recs_update_map {β : Type} (g : NsRec → β) (n : Node) (u : Nat) (f : NsRec → NsRec)
    (h : ∀ r ∈ recs n, r.uid = u → g (f r) = g r) : (recs (nsUpdate n u f)).map g = (recs n).map g := by
  rw [recs_nsUpdate, List.map_map]
  refine List.map_congr_left (fun r hr => ?_)
  by_cases hu : r.uid = u
  · simp only [Function.comp, hu, beq_self_eq_true, if_true]; exact h r hr hu
  · have : (r.uid == u) = false := by simp [hu]
    simp [Function.comp, this]

theorem nsDeref_update (n : Node) (u v : Nat) (f : NsRec → NsRec) (hf : ∀ r, (f r).uid = r.uid) :
    nsDeref (nsUpdate n u f) v = (nsDeref n v).map (fun r => if r.uid == u then f r else r) := by
  have := recs_nsUpdate n u f
  unfold recs at this
  unfold nsDeref
  rw [this]
  generalize (n.slots.filterMap id) = l
  induction l with
  | nil => rfl
  | cons x l ih =>
    simp only [List.map_cons, List.find?_cons]
    have he : ((if (x.uid == u) = true then f x else x).uid == v) = (x.uid == v) := by
      by_cases hx : (x.uid == u) = true
      · rw [if_pos hx, hf]
      · rw [if_neg hx]
    rw [he]
    by_cases hv : (x.uid == v) = true
    · simp [hv]
    · simp only [hv]; exact ih

/-! ### adding and removing -/

theorem pushSlot_perm (r : NsRec) (l : List (Option NsRec)) :
    ((pushSlot r l).filterMap id).Perm (r :: l.filterMap id) := by
  induction l with
  | nil => exact List.Perm.refl _
  | cons x l ih =>
    cases x with
    | none => simp [pushSlot]
    | some y =>
      simp only [pushSlot, List.filterMap_cons, id_eq]
      exact (List.Perm.cons y ih).trans (List.Perm.swap r y _)

theorem pushSlot_head {r d : NsRec} {l : List (Option NsRec)} : pushSlot r (some d :: l) = some d :: pushSlot r l := rfl

theorem kickSlot_filterMap (u : Nat) (l : List (Option NsRec)) :
    (kickSlot u l).filterMap id = (l.filterMap id).eraseP (fun r => r.uid == u) := by
  induction l with
  | nil => rfl
  | cons x l ih =>
    cases x with
    | none => simpa [kickSlot] using ih
    | some y =>
      simp only [kickSlot, List.filterMap_cons, id_eq]
      by_cases h : (y.uid == u) = true
      · simp [h]
      · simp [h, ih]

theorem eraseP_uid {l : List NsRec} (hn : (l.map (·.uid)).Nodup) (u : Nat) :
    l.eraseP (fun r => r.uid == u) = l.filter (fun r => r.uid != u) := by
  induction l with
  | nil => rfl
  | cons x l ih =>
    simp only [List.map_cons, List.nodup_cons] at hn
    by_cases h : x.uid = u
    · have : l.filter (fun r => r.uid != u) = l := by
        rw [List.filter_eq_self]
        intro r hr
        simp only [bne_iff_ne, ne_eq]
        intro hh
        exact hn.1 (h ▸ hh ▸ List.mem_map.2 ⟨r, hr, rfl⟩)
      simp [h, this]
    · have h' : (x.uid == u) = false := by simp [h]
      simp [h', h, ih hn.2]

/-! ### clients -/

theorem getClient_put (n : Node) (fd fd' : Nat) (c : Option Client) :
    getClient (putClient n fd c) fd' = if fd' = fd then c else getClient n fd' := by
  unfold getClient putClient
  simp only
  by_cases h : fd' = fd
  · subst h
    rw [if_pos rfl, List.getElem?_set_self (by simp; omega)]
    rfl
  · rw [if_neg h, List.getElem?_set_ne (fun hh => h hh.symm)]
    by_cases hl : fd' < n.clients.length
    · rw [List.getElem?_append_left hl]
    · rw [List.getElem?_append_right (by omega), List.getElem?_eq_none (by omega : n.clients.length ≤ fd')]
      rw [List.getElem?_replicate]
      split <;> rfl

theorem putClient_br (n : Node) (fd : Nat) (c : Option Client) : (putClient n fd c).br = n.br := rfl
theorem putClient_slots (n : Node) (fd : Nat) (c : Option Client) : (putClient n fd c).slots = n.slots := rfl
theorem putClient_effective (n : Node) (fd : Nat) (c : Option Client) : (putClient n fd c).effective = n.effective := rfl
theorem putClient_recs (n : Node) (fd : Nat) (c : Option Client) : recs (putClient n fd c) = recs n := rfl

theorem notifyAll_get (e : Env) (me : Nat) (ns : Option Nat) (exec : Nat) (l : List (Option Client)) :
    ∀ i j, (notifyAll e me ns exec i l).1[j]? =
      (l[j]?).map (Option.map (fun k => if i + j = me then k else (notifyOne e ns exec k).1)) := by
  induction l with
  | nil => intro i j; simp [notifyAll]
  | cons x l ih =>
    intro i j
    cases x with
    | none =>
      simp only [notifyAll]
      cases j with
      | zero => simp
      | succ j =>
        simp only [List.getElem?_cons_succ]
        rw [ih]
        have : i + 1 + j = i + (j + 1) := by omega
        rw [this]
    | some k =>
      simp only [notifyAll]
      have hs : ∀ j, i + 1 + j = i + (j + 1) := by intro j; omega
      by_cases h : i = me
      · rw [if_pos h]
        cases j with
        | zero => simp [h]
        | succ j => simp only [List.getElem?_cons_succ]; rw [ih, hs]
      · rw [if_neg h]
        cases hk : notifyOne e ns exec k with
        | mk k' m =>
          cases m with
          | none =>
            cases j with
            | zero => simp [h, hk]
            | succ j => simp only [List.getElem?_cons_succ]; rw [ih, hs]
          | some m =>
            cases j with
            | zero => simp [h, hk]
            | succ j => simp only [List.getElem?_cons_succ]; rw [ih, hs]

theorem notifyAll_mem (e : Env) (me : Nat) (ns : Option Nat) (exec : Nat) (l : List (Option Client)) :
    ∀ i fd m, (fd, m) ∈ (notifyAll e me ns exec i l).2 ↔
      ∃ j k, l[j]? = some (some k) ∧ fd = i + j ∧ fd ≠ me ∧ (notifyOne e ns exec k).2 = some m := by
  induction l with
  | nil => intro i fd m; simp [notifyAll]
  | cons x l ih =>
    intro i fd m
    have shift : (∃ j k, l[j]? = some (some k) ∧ fd = i + 1 + j ∧ fd ≠ me ∧ (notifyOne e ns exec k).2 = some m) ↔
        ∃ j k, (x :: l)[j + 1]? = some (some k) ∧ fd = i + (j + 1) ∧ fd ≠ me ∧ (notifyOne e ns exec k).2 = some m := by
      constructor
      · rintro ⟨j, k, h1, h2, h3⟩; exact ⟨j, k, by simpa using h1, by omega, h3⟩
      · rintro ⟨j, k, h1, h2, h3⟩; exact ⟨j, k, by simpa using h1, by omega, h3⟩
    have split : (∃ j k, (x :: l)[j]? = some (some k) ∧ fd = i + j ∧ fd ≠ me ∧ (notifyOne e ns exec k).2 = some m) ↔
        (∃ k, x = some k ∧ fd = i ∧ fd ≠ me ∧ (notifyOne e ns exec k).2 = some m) ∨
        ∃ j k, (x :: l)[j + 1]? = some (some k) ∧ fd = i + (j + 1) ∧ fd ≠ me ∧ (notifyOne e ns exec k).2 = some m := by
      constructor
      · rintro ⟨j, k, h1, h2, h3⟩
        cases j with
        | zero => exact Or.inl ⟨k, by simpa using h1, by omega, h3⟩
        | succ j => exact Or.inr ⟨j, k, h1, h2, h3⟩
      · rintro (⟨k, h1, h2, h3⟩ | ⟨j, k, h1, h2, h3⟩)
        · exact ⟨0, k, by simp [h1], by omega, h3⟩
        · exact ⟨j + 1, k, h1, h2, h3⟩
    rw [split, ← shift, ← ih]
    cases x with
    | none => simp [notifyAll]
    | some k =>
      simp only [notifyAll]
      by_cases h : i = me
      · rw [if_pos h]
        simp only
        constructor
        · intro hh; exact Or.inr hh
        · rintro (⟨k', -, h2, h3, -⟩ | hh)
          · exact absurd (h2.trans h) h3
          · exact hh
      · rw [if_neg h]
        cases hk : notifyOne e ns exec k with
        | mk k' mm =>
          cases mm with
          | none =>
            simp only
            constructor
            · intro hh; exact Or.inr hh
            · rintro (⟨k2, h1, h2, h3, h4⟩ | hh)
              · injection h1 with h1; subst h1; rw [hk] at h4; exact absurd h4 (by simp)
              · exact hh
          | some mm =>
            simp only [List.mem_cons, Prod.mk.injEq]
            constructor
            · rintro (⟨rfl, rfl⟩ | hh)
              · exact Or.inl ⟨k, rfl, rfl, h, by rw [hk]⟩
              · exact Or.inr hh
            · rintro (⟨k2, h1, h2, h3, h4⟩ | hh)
              · injection h1 with h1; subst h1; rw [hk] at h4
                injection h4 with h4
                exact Or.inl ⟨h2, h4.symm⟩
              · exact Or.inr hh

/-- What the passing of time does to one client. -/
def timeoutOne (us : Nat) (c : Client) : Client × Option Msg :=
  match c.watching with
  | some w => if deltaMs w.since us > w.timeout then ({ c with watching := none }, some (.reply (.err "Timeout"))) else (c, none)
  | none => (c, none)

theorem timeoutAll_get (us : Nat) (l : List (Option Client)) :
    ∀ i j : Nat, (timeoutAll us i l).1[j]? = (l[j]?).map (Option.map (fun k => (timeoutOne us k).1)) := by
  induction l with
  | nil => intro i j; simp [timeoutAll]
  | cons x l ih =>
    intro i j
    cases x with
    | none =>
      simp only [timeoutAll]
      cases j with
      | zero => simp
      | succ j => simp only [List.getElem?_cons_succ]; rw [ih]
    | some k =>
      simp only [timeoutAll, timeoutOne]
      cases hw : k.watching with
      | none =>
        simp only
        cases j with
        | zero => simp [hw]
        | succ j => simp only [List.getElem?_cons_succ]; rw [ih]; rfl
      | some w =>
        simp only
        by_cases hd : deltaMs w.since us > w.timeout
        · rw [if_pos hd]
          cases j with
          | zero => simp [hw, hd]
          | succ j => simp only [List.getElem?_cons_succ]; rw [ih]; rfl
        · rw [if_neg hd]
          cases j with
          | zero => simp [hw, hd]
          | succ j => simp only [List.getElem?_cons_succ]; rw [ih]; rfl

theorem timeoutAll_mem (us : Nat) (l : List (Option Client)) :
    ∀ i fd m, (fd, m) ∈ (timeoutAll us i l).2 ↔
      ∃ j k, l[j]? = some (some k) ∧ fd = i + j ∧ (timeoutOne us k).2 = some m := by
  induction l with
  | nil => intro i fd m; simp [timeoutAll]
  | cons x l ih =>
    intro i fd m
    have split : (∃ j k, (x :: l)[j]? = some (some k) ∧ fd = i + j ∧ (timeoutOne us k).2 = some m) ↔
        (∃ k, x = some k ∧ fd = i ∧ (timeoutOne us k).2 = some m) ∨ (fd, m) ∈ (timeoutAll us (i + 1) l).2 := by
      rw [ih]
      constructor
      · rintro ⟨j, k, h1, h2, h3⟩
        cases j with
        | zero => exact Or.inl ⟨k, by simpa using h1, by omega, h3⟩
        | succ j => exact Or.inr ⟨j, k, by simpa using h1, by omega, h3⟩
      · rintro (⟨k, h1, h2, h3⟩ | ⟨j, k, h1, h2, h3⟩)
        · exact ⟨0, k, by simp [h1], by omega, h3⟩
        · exact ⟨j + 1, k, by simpa using h1, by omega, h3⟩
    rw [split]
    cases x with
    | none => simp [timeoutAll]
    | some k =>
      simp only [timeoutAll, Option.some.injEq]
      cases hw : k.watching with
      | none =>
        simp only
        constructor
        · exact Or.inr
        · rintro (⟨k', rfl, -, h3⟩ | hh)
          · simp [timeoutOne, hw] at h3
          · exact hh
      | some w =>
        simp only
        by_cases hd : deltaMs w.since us > w.timeout
        · rw [if_pos hd]
          simp only [List.mem_cons, Prod.mk.injEq]
          constructor
          · rintro (⟨rfl, rfl⟩ | hh)
            · exact Or.inl ⟨k, rfl, rfl, by simp [timeoutOne, hw, hd]⟩
            · exact Or.inr hh
          · rintro (⟨k', rfl, h2, h3⟩ | hh)
            · simp only [timeoutOne, hw, if_pos hd, Option.some.injEq] at h3
              exact Or.inl ⟨h2, h3.symm⟩
            · exact Or.inr hh
        · rw [if_neg hd]
          simp only
          constructor
          · exact Or.inr
          · rintro (⟨k', rfl, -, h3⟩ | hh)
            · simp [timeoutOne, hw, hd] at h3
            · exact hh

theorem getClient_detach (u : Nat) (n : Node) (fd : Nat) :
    ((detach u n.clients)[fd]?).join =
      (getClient n fd).map (fun c => if c.ns = some u then { c with ns := none } else c) := by
  unfold detach getClient
  rw [List.getElem?_map]
  cases n.clients[fd]? with
  | none => rfl
  | some x => cases x <;> rfl

theorem notifyOne_ns (e : Env) (ns : Option Nat) (exec : Nat) (k : Client) : (notifyOne e ns exec k).1.ns = k.ns := by
  unfold notifyOne
  split
  · rfl
  · split
    · rfl
    · split <;> rfl

theorem notifyOne_client (e : Env) (ns : Option Nat) (exec : Nat) (k : Client) :
    (notifyOne e ns exec k).1 = k ∨ (notifyOne e ns exec k).1 = { k with watching := none } := by
  unfold notifyOne
  split
  · exact Or.inl rfl
  · split
    · exact Or.inl rfl
    · split
      · exact Or.inr rfl
      · exact Or.inl rfl

theorem post_get (e : Env) (fd : Nat) (n : Node) (c : Client) (fd' : Nat) :
    getClient (post e fd n c).1 fd' = (getClient n fd').map (fun k =>
      match c.executed with
      | none => k
      | some i => if fd' = fd then k else (notifyOne e c.ns i k).1) := by
  unfold post
  cases c.executed with
  | none => simp
  | some i =>
    simp only [getClient]
    rw [notifyAll_get]
    cases n.clients[fd']? with
    | none => rfl
    | some x =>
      cases x with
      | none => rfl
      | some k => simp

theorem post_rest (e : Env) (fd : Nat) (n : Node) (c : Client) :
    (post e fd n c).1.br = n.br ∧ (post e fd n c).1.slots = n.slots ∧ (post e fd n c).1.effective = n.effective := by
  unfold post
  cases c.executed <;> exact ⟨rfl, rfl, rfl⟩

end Zdb
