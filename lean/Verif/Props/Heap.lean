/-
C71: the process follows no pointer to memory it does not have, frees no block twice, and every block it has is held by
exactly one of its variables.
-/
import Verif.Spec.Heap
import Verif.Lemmas.HeapSim
namespace Zdb.Heap

theorem serve_calm {l : Level} (hl : l ≠ .any) {es : List Ev} {r : Res Srv} (h : Exec l (serve es) blank r) :
    r = .died ∨ ∃ s M, r = .done s M ∧ Calm l s M := by
  have hw : wp l (serve es) (Calm l) blank := wp_call wp_start fun s M hs => wp_runEvs hl es s M hs
  exact wp_sound h hw

theorem life_calm {l : Level} (hl : l ≠ .any) {es : List Ev} {r : Res Unit} (h : Exec l (life es) blank r) :
    r = .died ∨ ∃ M, r = .done () M ∧ Holds l (cnt []) M := by
  have hw : wp l (life es) (fun _ M => Holds l (cnt []) M) blank :=
    wp_call wp_start fun s M hs => wp_call (wp_runEvs hl es s M hs) fun s M hs => wp_stop hs
  rcases wp_sound h hw with h | ⟨_, M, h, hq⟩
  · exact .inl h
  · exact .inr ⟨M, h, hq⟩

theorem Calm.nodup {l : Level} {s : Srv} {M : Mem} (h : Calm l s M) : s.blocks.Nodup :=
  List.nodup_iff_count.2 fun b => h.1.le b

theorem Calm.live_iff {l : Level} {s : Srv} {M : Mem} (h : Calm l s M) (b : Nat) : M b = .live ↔ b ∈ s.blocks := by
  have := (h.1 b).1
  rw [show srvO s b = s.blocks.count b from rfl] at this
  rw [← List.count_pos_iff]
  split at this
  · next e => simp [e, this]
  · next e => simp [e, this]

/-- **C71.** Whatever clients, files and clocks do, up to the three places of `Hazard` the server follows no NULL pointer
    and no pointer to a block it does not have, and frees nothing twice; between two events no two of its variables hold
    the same block, and they hold exactly the blocks that have not been forgotten. Missing: the three places
    (`C71_history_refuted`, `C71_owner_refuted`, `C71_mirror_refuted`). -/
theorem C71_partial (es : List Ev) (r : Res Srv) (h : Exec .leaky (serve es) blank r) :
    r ≠ .bad ∧ ∀ s M, r = .done s M → s.blocks.Nodup ∧ ∀ b, M b = .live ↔ b ∈ s.blocks := by
  rcases serve_calm (by decide) h with rfl | ⟨s, M, rfl, hc⟩
  · exact ⟨fun e => (nomatch e), fun s M e => (nomatch e)⟩
  · refine ⟨fun e => (nomatch e), fun s' M' e => ?_⟩
    cases e
    exact ⟨hc.nodup, hc.live_iff⟩

/-- **C71**, where no block is forgotten: the memory the process has is what its variables hold. Missing: the five places
    that forget one (`C71_set_leak_refuted` and the theorems behind it). -/
theorem C71_clean_partial (es : List Ev) (r : Res Srv) (h : Exec .clean (serve es) blank r) :
    r ≠ .bad ∧ ∀ s M, r = .done s M → s.blocks.Nodup ∧ ∀ b, M b ≠ .gone ↔ b ∈ s.blocks := by
  rcases serve_calm (by decide) h with rfl | ⟨s, M, rfl, hc⟩
  · exact ⟨fun e => (nomatch e), fun s M e => (nomatch e)⟩
  · refine ⟨fun e => (nomatch e), fun s' M' e => ?_⟩
    cases e
    refine ⟨hc.nodup, fun b => ?_⟩
    rw [← hc.live_iff b]
    have := (hc.1 b).2 rfl
    cases e : M b with
    | gone => simp
    | live => simp
    | lost => exact absurd e this

/-- **C71**, the end of the process: it frees all its blocks, each once, and keeps none that was not forgotten. -/
theorem C71_stop_partial (l : Level) (hl : l ≠ .any) (es : List Ev) (r : Res Unit) (h : Exec l (life es) blank r) :
    r ≠ .bad ∧ ∀ M, r = .done () M → (∀ b, M b ≠ .live) ∧ (l = .clean → M = blank) := by
  rcases life_calm hl h with rfl | ⟨M, rfl, hc⟩
  · exact ⟨fun e => (nomatch e), fun M e => (nomatch e)⟩
  · refine ⟨fun e => (nomatch e), fun M' e => ?_⟩
    cases e
    have hn : ∀ b, M b ≠ .live := by
      intro b hb
      have := (hc b).1
      simp [hb, cnt] at this
    refine ⟨hn, fun e => ?_⟩
    funext b
    have h2 := (hc b).2 e
    cases hb : M b with
    | gone => rfl
    | live => exact absurd hb (hn b)
    | lost => exact absurd hb h2

/-- A client that has sent nothing that waits for more, and has been sent every reply. -/
def Client.quiet (c : Client) : Prop := c.phase = .empty ∧ c.resp = []

theorem toList_le (o : Option Nat) : o.toList.length ≤ 1 := by cases o <;> simp

theorem quiet_length {c : Client} (hi : CInv c) (hq : c.quiet) : c.blocks.length ≤ 4 := by
  have h0 : c.argv = none ∧ c.args = [] := by
    unfold CInv at hi
    rw [hq.1] at hi
    exact hi
  have := toList_le c.nonce
  simp only [Client.blocks, Client.reqBlocks, h0.1, h0.2, hq.2, respBlocks, List.length_append, List.length_cons,
    List.length_nil, Option.toList_none, List.take_nil, List.flatMap_nil]
  omega

theorem space_length (sp : Space) : sp.blocks.length ≤ 12 := by
  have h1 := toList_le sp.pass
  have h2 : (seqBlocks sp.seq).length ≤ 2 := by
    cases sp.seq with
    | none => simp [seqBlocks]
    | some p => simp [seqBlocks]
  simp only [Space.blocks, List.length_append, List.length_cons, List.length_nil]
  omega

theorem flat_length {α : Type} (f : α → List Nat) (n : Nat) : ∀ (l : List α), (∀ a ∈ l, (f a).length ≤ n) →
    (l.flatMap f).length ≤ n * l.length := by
  intro l
  induction l with
  | nil => intro _; simp
  | cons a l ih =>
    intro h
    have h1 := h a (by simp)
    have h2 := ih fun x hx => h x (by simp [hx])
    simp only [List.flatMap_cons, List.length_append, List.length_cons]
    rw [Nat.mul_add, Nat.mul_one]
    omega

theorem nodup_bound : ∀ (bs own : List Nat), bs.Nodup → (∀ b ∈ bs, b ∈ own) → bs.length ≤ own.length := by
  intro bs
  induction bs with
  | nil => intro own _ _; exact Nat.zero_le _
  | cons a bs ih =>
    intro own hn hm
    have hn' := List.nodup_cons.1 hn
    have ha := hm a List.mem_cons_self
    have := ih (own.erase a) hn'.2 fun b hb =>
      (List.mem_erase_of_ne (fun e : b = a => hn'.1 (e ▸ hb))).2 (hm b (List.mem_cons_of_mem _ hb))
    rw [List.length_erase_of_mem ha] at this
    have hp := List.length_pos_of_mem ha
    simp only [List.length_cons]
    omega

/-- **C71**, how much: however many requests a server has answered, when its clients are quiet it has at most four blocks
    for each of them, twelve for each namespace, and six more, the table of keys apart. -/
theorem C71_count_partial (es : List Ev) (s : Srv) (M : Mem) (h : Exec .clean (serve es) blank (.done s M))
    (hq : ∀ c ∈ s.clients, c.quiet) (bs : List Nat) (hn : bs.Nodup) (hb : ∀ b ∈ bs, M b ≠ .gone) :
    bs.length ≤ 6 + 4 * s.clients.length + 12 * s.spaces.length := by
  have hc : Calm .clean s M := by
    rcases serve_calm (by decide) h with h | ⟨s', M', h, hc⟩
    · cases h
    · cases h
      exact hc
  refine Nat.le_trans (nodup_bound bs s.blocks hn fun b hb' =>
    (((C71_clean_partial es _ h).2 s M rfl).2 b).1 (hb b hb')) ?_
  have h1 := flat_length Client.blocks 4 s.clients fun c hm => quiet_length (hc.2.cl c hm) (hq c hm)
  have h2 := flat_length Space.blocks 12 s.spaces fun sp _ => space_length sp
  have h3 := toList_le s.branches
  simp only [Srv.blocks, Srv.globals, List.length_append, List.length_cons, List.length_nil]
  omega

/-! ### runs -/

/-- Answers for the start: one namespace without files, keys chosen by users. -/
def ansStart : List Nat := [1, 1, 1, 0, 0, 0]
/-- Answers for a request with `k` arguments, for the command in slot `cmd` of the table; `tail` are its own. -/
def ansReq (k cmd : Nat) (tail : List Nat) : List Nat :=
  [k + 3, 2, 1, 1] ++ (List.replicate (k - 1) [2, 1, 1]).flatten ++ [cmd] ++ tail ++ [0]
/-- Answers for a new value of a key. -/
def ansSet : List Nat := ansReq 3 7 [1, 1, 0, 1, 0, 1, 0, 1, 1, 1, 1]
/-- Answers for GET of it, with a reply that cannot be sent at once. -/
def ansGet : List Nat := ansReq 2 8 [1, 1, 1, 1, 1, 0]
/-- A client connects, sets a key and gets it. -/
def evs : List Ev := [.connect 5, .input 5, .input 5]

/-- A run that meets the hypotheses: after SET and GET a reply waits, and nothing is forgotten. -/
theorem exHeap_run : ∃ s M, Exec .clean (serve evs) blank (.done s M) ∧ s.clients.length = 1 ∧ s.blocks.length = 20 ∧
    ∀ c ∈ s.clients, c.resp.length = 1 := by
  obtain ⟨s, σ, h, hp⟩ := sees_exec (l := .clean) (p := serve evs)
    (as := ansStart ++ [0, 3] ++ ansSet ++ [0, 2] ++ ansGet ++ [0])
    (P := fun s _ => s.clients.length == 1 && s.blocks.length == 20 && s.clients.all (·.resp.length == 1)) (by decide +kernel)
  simp only [Bool.and_eq_true, beq_iff_eq, List.all_eq_true] at hp
  exact ⟨s, _, h, hp.1.1, hp.1.2, hp.2⟩

/-- A run to the end: the reply is sent, the server stops, and memory is as at the start. -/
theorem exHeap_life : Exec .clean (life (evs ++ [.output 5])) blank (.done () blank) := by
  obtain ⟨_, σ, h, _⟩ := sees_exec (l := .clean) (p := life (evs ++ [.output 5]))
    (as := ansStart ++ [0, 3] ++ ansSet ++ [0, 2] ++ ansGet ++ [0, 1])
    (P := fun _ _ => true) (by decide +kernel)
  rw [((C71_stop_partial .clean (by decide) _ _ h).2 _ rfl).2 rfl] at h
  exact h

/-- A server with clients that are quiet. -/
theorem exHeap_quiet : ∃ s M, Exec .clean (serve (evs ++ [.output 5])) blank (.done s M) ∧ s.clients.length = 1 ∧
    ∀ c ∈ s.clients, c.quiet := by
  obtain ⟨s, σ, h, hp⟩ := sees_exec (l := .clean) (p := serve (evs ++ [.output 5]))
    (as := ansStart ++ [0, 3] ++ ansSet ++ [0, 2] ++ ansGet ++ [0, 1])
    (P := fun s _ => s.clients.length == 1 && s.clients.all fun c => decide (c.phase = .empty) && c.resp.isEmpty)
    (by decide +kernel)
  simp only [Bool.and_eq_true, beq_iff_eq, List.all_eq_true, decide_eq_true_eq, List.isEmpty_iff] at hp
  exact ⟨s, _, h, hp.1, hp.2⟩

/-! ### refutations -/

theorem leak_of {es : List Ev} {as : List Nat}
    (h : sees (fun (_ : Srv) σ => !σ.lost.isEmpty && σ.lost.all (· ∉ σ.live)) (sim .leaky (serve es) as sim0) = true) :
    ∃ s M, Exec .leaky (serve es) blank (.done s M) ∧ ∃ b, M b ≠ .gone ∧ b ∉ s.blocks := by
  obtain ⟨s, σ, h, hp⟩ := sees_exec h
  simp only [Bool.and_eq_true, List.all_eq_true, decide_eq_true_eq, Bool.not_eq_true', List.isEmpty_eq_false_iff] at hp
  obtain ⟨b, hb⟩ := List.exists_mem_of_ne_nil _ hp.1
  have hl : σ.mem b = .lost := by simp [Sim.mem, hp.2 b hb, hb]
  refine ⟨s, _, h, b, by rw [hl]; decide, fun hm => ?_⟩
  rw [← ((C71_partial es _ h).2 s _ rfl).2 b, hl] at hm
  cases hm

/-- **C71** is false for SET of the value a key has already: the payload read for the comparison is never freed. -/
theorem C71_set_leak_refuted : ∃ s M, Exec .leaky (serve [.connect 5, .input 5]) blank (.done s M) ∧
    ∃ b, M b ≠ .gone ∧ b ∉ s.blocks :=
  leak_of (as := ansStart ++ [0, 3] ++ ansReq 3 7 [1, 1, 1, 1, 0, 1, 1, 1, 1, 1, 1, 1] ++ [0]) (by decide +kernel)

/-- **C71** is false for a client that goes while replies wait: they are never freed. -/
theorem C71_reply_leak_refuted : ∃ s M, Exec .leaky (serve [.connect 5, .input 5, .error 5]) blank (.done s M) ∧
    ∃ b, M b ≠ .gone ∧ b ∉ s.blocks :=
  leak_of (as := ansStart ++ [0, 1] ++ ansReq 1 17 [0] ++ [0]) (by decide +kernel)

/-- **C71** is false for a second password of a namespace: the first is never freed. -/
theorem C71_password_leak_refuted : ∃ s M, Exec .leaky (serve [.connect 5, .input 5, .input 5]) blank (.done s M) ∧
    ∃ b, M b ≠ .gone ∧ b ∉ s.blocks :=
  leak_of (as := ansStart ++ [0, 4] ++ ansReq 4 20 [1, 1, 1, 1, 1, 0, 1] ++ [0] ++ [4] ++
    ansReq 4 20 [1, 1, 1, 1, 1, 0, 1] ++ [0]) (by decide +kernel)

/-- **C71** is false for HISTORY of an entry whose payload cannot be read: the entry is never freed. -/
theorem C71_history_leak_refuted : ∃ s M, Exec .leaky (serve [.connect 5, .input 5]) blank (.done s M) ∧
    ∃ b, M b ≠ .gone ∧ b ∉ s.blocks :=
  leak_of (as := ansStart ++ [0, 2] ++ ansReq 2 15 [1, 1, 1, 1, 0, 1] ++ [0]) (by decide +kernel)

/-- **C71** is false for NSNEW when a directory cannot be made: the namespace is never freed. -/
theorem C71_nsnew_leak_refuted : ∃ s M, Exec .leaky (serve [.connect 5, .input 5]) blank (.done s M) ∧
    ∃ b, M b ≠ .gone ∧ b ∉ s.blocks :=
  leak_of (as := ansStart ++ [0, 2] ++ ansReq 2 18 [1, 1, 1, 0, 0, 1] ++ [0]) (by decide +kernel)

/-- **C71** is false for HISTORY of a key whose index file cannot be read: NULL is followed. -/
theorem C71_history_refuted : Exec .any (serve [.connect 5, .input 5]) blank .bad :=
  seesBad_exec (as := ansStart ++ [0, 2] ++ ansReq 2 15 [1, 1, 0] ++ [0]) (by decide +kernel)

/-- **C71** is false for a request of one word from a client that has said MASTER: the word is freed as the owner of the
    request and then read as the name of the command. -/
theorem C71_owner_refuted : Exec .any (serve [.connect 5, .input 5, .input 5]) blank .bad :=
  seesBad_exec (as := ansStart ++ [0, 1] ++ ansReq 1 2 [1, 1] ++ [0] ++ [1, 4, 2, 1, 1, 0]) (by decide +kernel)

/-- **C71** is false for a client whose namespace is deleted while another one mirrors: its next request is mirrored with
    the name of a namespace that is NULL. -/
theorem C71_mirror_refuted :
    Exec .any (serve [.connect 5, .input 5, .connect 6, .input 5, .input 6, .input 5, .input 6]) blank .bad :=
  seesBad_exec (as := ansStart ++ [0, 1] ++ ansReq 1 1 [1, 1] ++ [0, 0] ++
    [2] ++ ansReq 2 18 [1, 1, 1, 0, 1, 1, 0, 0, 1, 1] ++ [0, 2] ++ ansReq 2 23 [1, 0, 1, 1] ++ [0, 2] ++
    ansReq 2 19 [1, 1, 1, 0, 1, 1] ++ [0, 1, 4, 2, 1, 1, 1, 1, 1]) (by decide +kernel)

end Zdb.Heap
