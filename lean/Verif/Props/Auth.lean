/-
C14, C15, C16: passwords and challenges.
-/
import Verif.Props.Access
import Verif.Lemmas.NodeAuth
namespace Zdb

/-! ### C14 -/

/-- C14, up to bytes after a NUL: with an administrator password, a client becomes administrator only by an AUTH
    whose arguments, each cut at its first NUL, are the password, or a word and the digest of the last challenge
    sent to this connection. -/
theorem C14_admin_only_with_secret_partial {S : Settings} {n0 n n' : Node} {l : List (Event × List (Nat × Msg))}
    (h0 : Started S n0) (h : NodeRun S n0 l n) {ev : Event} {sent : List (Nat × Msg)} {st : Status}
    (hs : nodeStep S n ev = .ok n' sent st) {fd : Nat} {c c' : Client} (hc : getClient n fd = some c) (hstay : Stays fd ev)
    (ha : c.admin = false) (hc' : getClient n' fd = some c') (ha' : c'.admin = true) :
    ∃ e argv args pwd, ev = .request fd e argv ∧ Asks n fd e argv .auth args ∧ S.adminpwd = some pwd ∧ GotOk fd sent ∧
      Proof S pwd (lastChallenge fd l) (args.map cstr) := by
  rcases client_step hs hc' with ⟨rfl, -⟩ | ⟨c0, hc0, hr | hb⟩
  · exact absurd rfl hstay
  · rw [hc] at hc0; injection hc0 with hc0; subst hc0
    obtain ⟨e, argv, p, i, m, n1, rest, rfl, hp, hpc, -, -, hce, hsent, -⟩ := hr.ex
    generalize hh : p.h = ph at hce
    have hargv := hp
    cases hce with
    | auth a q pwd hargs hq hcs =>
      refine ⟨e, argv, [q], pwd, rfl, ⟨p, hp, hh, by rw [hargs]; rfl⟩, hq, by unfold GotOk; rw [hsent]; rfl, ?_⟩
      simp only [List.map_cons, List.map_nil, hcs]
      exact .plain
    | secure a w d pwd nonce hargs hq hn hl hcs =>
      refine ⟨e, argv, [w, d], pwd, rfl, ⟨p, hp, hh, by rw [hargs]; rfl⟩, hq, by unfold GotOk; rw [hsent]; rfl, ?_⟩
      simp only [List.map_cons, List.map_nil, hcs]
      exact .digest _ _ (held_challenge h0 h hc hn)
    | _ => exact absurd (ha'.symm.trans ha) (by simp)
  · rw [hc] at hc0; injection hc0 with hc0; subst hc0
    rw [hb.admin, ha] at ha'
    exact absurd ha' (by simp)

/-- C14: an AUTH that is not acknowledged leaves rights and namespaces as they were. -/
theorem C14_failed_attempt_changes_nothing {S : Settings} {n n' : Node} {fd : Nat} {e : Env} {argv : List Bytes}
    {sent : List (Nat × Msg)} {st : Status} (hs : request S n fd e argv = .ok n' sent st) {args : List Bytes}
    (hp : Asks n fd e argv .auth args) (hno : ¬ GotOk fd sent) : rights n' fd = rights n fd ∧ SameNode n n' := by
  obtain ⟨p, hp, hh, -⟩ := hp
  have hran := request_ran hs hp
  refine ⟨?_, hran.data (by rw [hh]; simp) (by rw [hh]; rfl)⟩
  obtain ⟨n1, c1, m, i, -, -, hr, hn, hsent⟩ := hran.ex
  have hce := runHandler_client hr
  rw [hh] at hce
  have h1 : getClient n' fd = some c1 := by rw [hn]; exact post_me _ _ _ _
  unfold rights
  rw [h1, (pick_some hp).1]
  simp only [Option.map_some, Option.some.injEq]
  cases hce with
  | same => rfl
  | challenge => rfl
  | refused => rfl
  | auth => exact absurd (by unfold GotOk; rw [hsent]; rfl) hno
  | secure => exact absurd (by unfold GotOk; rw [hsent]; rfl) hno

theorem cstr_id {b : Bytes} (h : (0 : UInt8) ∉ b) : cstr b = b := by
  unfold cstr
  induction b with
  | nil => rfl
  | cons x b ih =>
    have hx : x ≠ 0 := fun hx => h (by rw [hx]; exact List.mem_cons_self ..)
    rw [List.takeWhile_cons_of_pos (by simpa using hx), ih (fun hm => h (List.mem_cons_of_mem _ hm))]

theorem argsValidate_ok {argv : List Bytes} (h : ∀ b ∈ argv, b ≠ []) : argsValidate argv argv.length = none := by
  unfold argsValidate
  rw [if_neg (by simp)]
  rw [if_neg]
  simp only [Bool.not_eq_true, List.any_eq_false]
  intro b hb
  have := h b hb
  cases b with
  | nil => exact absurd rfl this
  | cons x b => simp

/-- A handler that answers `+OK` and leaves the given client. -/
theorem ran_ok {S : Settings} {n n' : Node} {fd : Nat} {sent : List (Nat × Msg)} {st : Status} {p : Picked}
    (hran : Ran S n n' fd sent st p) (f : Client → Client)
    (hall : ∀ i, runHandler S p.e n { p.c with executed := some i } p.r p.h p.argv = sayOk n (f { p.c with executed := some i })) :
    GotOk fd sent ∧ SameNode n n' ∧ ∃ i, getClient n' fd = some (f { p.c with executed := some i }) := by
  obtain ⟨n1, c1, m, i, -, -, hr, hn, hsent⟩ := hran.ex
  rw [hall i] at hr
  obtain ⟨rfl, rfl, rfl, -⟩ := say_inj hr
  have hpost := post_rest p.e fd (putClient n1 fd (some (f { p.c with executed := some i }))) (f { p.c with executed := some i })
  refine ⟨by unfold GotOk; rw [hsent]; rfl, ?_, i, by rw [hn]; exact post_me _ _ _ _⟩
  rw [hn]; exact ⟨hpost.2.1, hpost.1, hpost.2.2⟩

/-- C14: the password of the administrator is accepted. -/
theorem C14_right_password_accepted {S : Settings} {n n' : Node} {fd : Nat} {e : Env} {argv : List Bytes}
    {sent : List (Nat × Msg)} {st : Status} (hs : request S n fd e argv = .ok n' sent st) {pwd : Bytes}
    (hp : Asks n fd e argv .auth [pwd]) (hpw : S.adminpwd = some pwd) (h0 : pwd ≠ []) (hl : pwd.length ≤ 128)
    (hz : (0 : UInt8) ∉ pwd) : GotOk fd sent ∧ ∃ c', getClient n' fd = some c' ∧ c'.admin = true := by
  obtain ⟨p, hp, hh, ha⟩ := hp
  obtain ⟨-, -, u, key, rest, i0, name, -, hargs, hlk, -, hhd⟩ := pick_some hp
  rw [hargs] at ha
  simp only [List.tail_cons] at ha
  subst ha
  have hkey : key ≠ [] := by
    rintro rfl
    rw [lookup_nil] at hlk; injection hlk with hlk; subst hlk
    rw [mem_handlers_star] at hhd
    rw [hh] at hhd; simp at hhd
  have hv : argsValidate [key, pwd] 2 = none := argsValidate_ok (argv := [key, pwd]) (by simp [hkey, h0])
  obtain ⟨h1, -, i, h2⟩ := ran_ok (request_ran hs hp) (fun c => { c with admin := true }) (fun i => by
    rw [hh, hargs]
    have hc : passwordCheck pwd pwd = true := by simp [passwordCheck, cstr_id hz]
    have hlen : ¬ pwd.length > 128 := by omega
    simp only [runHandler, cmdAuth, List.length_cons, List.length_nil, Nat.reduceAdd, if_true, cmdAuthRegular, hpw, hv, hc,
      if_neg hlen])
  exact ⟨h1, _, h2, rfl⟩

/-- C14: the digest of the challenge the client holds is accepted. -/
theorem C14_right_digest_accepted {S : Settings} {n n' : Node} {fd : Nat} {e : Env} {argv : List Bytes}
    {sent : List (Nat × Msg)} {st : Status} (hs : request S n fd e argv = .ok n' sent st) {pwd w nonce : Bytes} {c : Client}
    (hc : getClient n fd = some c) (hn : c.nonce = some nonce)
    (hp : Asks n fd e argv .auth [w, S.hash nonce pwd]) (hpw : S.adminpwd = some pwd)
    (hw : w.map lower = (str "secure")) (hl : (S.hash nonce pwd).length = 40)
    (hz : (0 : UInt8) ∉ S.hash nonce pwd) : GotOk fd sent ∧ ∃ c', getClient n' fd = some c' ∧ c'.admin = true := by
  obtain ⟨p, hp, hh, ha⟩ := hp
  obtain ⟨hpc, -, u, key, rest, i0, name, -, hargs, hlk, -, hhd⟩ := pick_some hp
  rw [hc] at hpc; injection hpc with hpc
  rw [hargs] at ha
  simp only [List.tail_cons] at ha
  subst ha
  have hkey : key ≠ [] := by
    rintro rfl
    rw [lookup_nil] at hlk; injection hlk with hlk; subst hlk
    rw [mem_handlers_star] at hhd
    rw [hh] at hhd; simp at hhd
  have hw0 : w ≠ [] := by rintro rfl; simp [str] at hw
  have hd0 : S.hash nonce pwd ≠ [] := by intro h; rw [h] at hl; simp at hl
  have hv : argsValidate [key, w, S.hash nonce pwd] 3 = none :=
    argsValidate_ok (argv := [key, w, S.hash nonce pwd]) (by simp [hkey, hw0, hd0])
  have hsec : strnCaseEq w wordSecure = true := by
    have : ∀ (a b : Bytes), a.map lower = b.map lower → strnCaseEq a b = true := by
      intro a
      induction a with
      | nil => intro b _; rfl
      | cons x a ih =>
        intro b hb
        cases b with
        | nil => simp at hb
        | cons y b =>
          simp only [List.map_cons, List.cons.injEq] at hb
          simp [strnCaseEq, hb.1, ih b hb.2]
    exact this _ _ (by rw [hw]; rfl)
  have hnch : strnCaseEq (S.hash nonce pwd) wordChallenge = false := by
    have : ∀ (a b : Bytes), (0 : UInt8) ∉ a → b.length < a.length → strnCaseEq a b = false := by
      intro a
      induction a with
      | nil => intro b _ h; simp at h
      | cons x a ih =>
        intro b hx hb
        cases b with
        | nil =>
          have : x ≠ 0 := fun h => hx (by rw [h]; exact List.mem_cons_self ..)
          simp [strnCaseEq, this]
        | cons y b =>
          simp only [List.length_cons] at hb
          simp [strnCaseEq, ih b (fun h => hx (List.mem_cons_of_mem _ h)) (by omega)]
    exact this _ _ hz (by rw [hl]; decide)
  obtain ⟨h1, -, i, h2⟩ := ran_ok (request_ran hs hp) (fun c => { c with admin := true, nonce := none }) (fun i => by
    rw [hh, hargs]
    have hck : passwordCheck (S.hash nonce pwd) (S.hash nonce pwd) = true := by simp [passwordCheck, cstr_id hz]
    have hpn : p.c.nonce = some nonce := by rw [← hpc]; exact hn
    simp [runHandler, cmdAuth, cmdAuthSecure, hv, hsec, hnch, hpw, hpn, hl, hck])
  exact ⟨h1, _, h2, rfl⟩

set_option maxRecDepth 100000 in
/-- C14 as stated is false: `AUTH pw\0x` is accepted. -/
theorem C14_refuted : ∃ (n n' : Node) (c c' : Client) (sent : List (Nat × Msg)) (args : List Bytes), Reachable exS n ∧
    getClient n 6 = some c ∧ c.admin = false ∧ c.nonce = none ∧ Asks n 6 (exE 4) (str "AUTH" :: args) .auth args ∧
    args = [[112, 119, 0, 120]] ∧ exS.adminpwd = some [112, 119] ∧
    request exS n 6 (exE 4) (str "AUTH" :: args) = .ok n' sent .keep ∧ GotOk 6 sent ∧ getClient n' 6 = some c' ∧ c'.admin = true :=
  ⟨ranNode exS exEvents, _, _, _, _, [[112, 119, 0, 120]], ex_reachable exEvents, rfl, rfl, rfl, ⟨_, rfl, rfl, rfl⟩, rfl, rfl, rfl, rfl,
    rfl, rfl⟩

/-- The digest of the example process. -/
def exDigest (k : Nat) (pwd : Bytes) : Bytes := exS.hash (exE k).nonce pwd

set_option maxRecDepth 100000 in
theorem C14_example : ranSent exS (exEvents ++
    [.request 6 (exE 4) [str "AUTH", str "p"],
     .request 6 (exE 5) [str "AUTH", str "SECURE", exDigest 6 (str "pw")],
     .request 6 (exE 6) [str "AUTH", str "SECURE", str "CHALLENGE"],
     .request 6 (exE 7) [str "AUTH", str "SECURE", exDigest 6 (str "pv")],
     .request 6 (exE 8) [str "AUTH", str "SECURE", exDigest 6 (str "pw")],
     .request 6 (exE 9) [str "AUTH", str "SECURE", str "CHALLENGE"],
     .request 6 (exE 10) [str "AUTH", str "SECURE", exDigest 9 (str "pw")],
     .request 6 (exE 11) [str "NSNEW", str "bar"]]) = ranSent exS exEvents ++
    [[(6, .reply (.err "Access denied"))],
     [(6, .reply (.err "No CHALLENGE requested, secure authentication not available"))],
     [(6, .challenge (exE 6).nonce)],
     [(6, .reply (.err "Access denied"))],
     [(6, .reply (.err "No CHALLENGE requested, secure authentication not available"))],
     [(6, .challenge (exE 9).nonce)],
     [(6, .reply .ok)], [(6, .reply .ok)]] := rfl

/-! ### C15 -/

/-- The last arguments of SELECT prove the knowledge of the password: the password itself, or SECURE and the digest of
    the challenge held by the client; SECURE may be shortened. -/
inductive Knows (S : Settings) (held : Option Bytes) (pwd : Bytes) : List Bytes → Prop where
  | plain : Knows S held pwd [pwd]
  | digest (w nonce : Bytes) (hw : w.map lower <+: str "secure") (h : held = some nonce) : Knows S held pwd [w, S.hash nonce pwd]

/-- Read-write access according to C15. -/
def FullAccess (S : Settings) (held : Option Bytes) (conf : NsConf) (rest : List Bytes) : Prop :=
  conf.password = none ∨ ∃ pwd, conf.password = some pwd ∧ Knows S held pwd rest

/-- Read-only access according to C15. -/
def ReadAccess (conf : NsConf) (rest : List Bytes) : Prop := conf.password ≠ none ∧ conf.isPublic = true ∧ rest = []

/-- The client is now in the namespace `u`, with this access; nothing else changed about it. -/
def Moved (n n' : Node) (fd u : Nat) (w : Bool) : Prop :=
  ∃ c c', getClient n fd = some c ∧ getClient n' fd = some c' ∧ { c' with executed := c.executed } = { c with ns := some u, writable := w }

theorem strnCaseEq_prefix {a b : Bytes} (hz : (0 : UInt8) ∉ a) : strnCaseEq a b = true ↔ a.map lower <+: b.map lower := by
  induction a generalizing b with
  | nil => simp [strnCaseEq]
  | cons x a ih =>
    have hx : x ≠ 0 := fun h => hz (by rw [h]; exact List.mem_cons_self ..)
    have ha : (0 : UInt8) ∉ a := fun h => hz (List.mem_cons_of_mem _ h)
    cases b with
    | nil => simp [strnCaseEq, hx]
    | cons y b => simp [strnCaseEq, ih ha]

theorem access_full {S : Settings} {c : Client} {conf : NsConf} {w0 a : Bytes} {rest : List Bytes}
    (hz : ∀ b ∈ rest, (0 : UInt8) ∉ b) (hlen : ∀ b ∈ rest, b.length ≤ 255) (hh : ∀ x y, (S.hash x y).length = 40)
    (h : FullAccess S c.nonce conf rest) : accessOf S c conf (w0 :: a :: rest) = .ok true := by
  unfold accessOf
  rcases h with h | ⟨pwd, h, hk⟩
  · rw [h]
  · rw [h]
    simp only
    cases hk with
    | plain =>
      have := hlen pwd (by simp)
      simp only [selectAccess]
      rw [if_neg (by omega), if_pos (by rw [cstr_id (hz pwd (by simp))]; simp)]
    | digest w nonce hw hn =>
      have hp : strnCaseEq w wordSecure = true := (strnCaseEq_prefix (hz w (by simp))).2 hw
      simp only [selectAccess, hp, hn, hh, Bool.not_true, Bool.false_eq_true, if_false, ne_eq, not_true_eq_false]
      rw [if_pos (by unfold passwordCheck; rw [cstr_id (hz _ (by simp))]; simp)]

theorem access_read {S : Settings} {c : Client} {conf : NsConf} {w0 a : Bytes} {rest : List Bytes}
    (h : ReadAccess conf rest) : accessOf S c conf (w0 :: a :: rest) = .ok false := by
  obtain ⟨h1, h2, rfl⟩ := h
  unfold accessOf
  cases hp : conf.password with
  | none => exact absurd hp h1
  | some pwd => simp [selectAccess, h2]

theorem access_none {S : Settings} {c : Client} {conf : NsConf} {w0 a : Bytes} {rest : List Bytes}
    (hz : ∀ b ∈ rest, (0 : UInt8) ∉ b) (h1 : ¬ FullAccess S c.nonce conf rest) (h2 : ¬ ReadAccess conf rest) :
    ∃ s, accessOf S c conf (w0 :: a :: rest) = .error s := by
  unfold accessOf
  cases hp : conf.password with
  | none => exact absurd (Or.inl hp) h1
  | some pwd =>
    have hk : ¬ Knows S c.nonce pwd rest := fun hk => h1 (Or.inr ⟨pwd, hp, hk⟩)
    simp only
    unfold selectAccess
    match rest, hz, hk, h2 with
    | [], _, _, h2 =>
      have : conf.isPublic = false := by
        cases hq : conf.isPublic with
        | false => rfl
        | true => exact absurd ⟨by rw [hp]; simp, hq, rfl⟩ h2
      exact ⟨_, by simp [this]; rfl⟩
    | [p], hz, hk, _ =>
      by_cases hl : p.length > 255
      · exact ⟨_, by simp only [if_pos hl]; rfl⟩
      · have : ¬ (cstr p == pwd) = true := by
          rw [cstr_id (hz p (by simp))]
          intro hq
          have : p = pwd := by simpa using hq
          subst this; exact hk .plain
        exact ⟨_, by simp only [if_neg hl, if_neg this]; rfl⟩
    | [w, d], hz, hk, _ =>
      by_cases hw : strnCaseEq w wordSecure = true
      · cases hn : c.nonce with
        | none => exact ⟨_, by simp only [hw]; rfl⟩
        | some nonce =>
          by_cases hl : d.length = 40
          · have : ¬ passwordCheck d (S.hash nonce pwd) = true := by
              unfold passwordCheck
              rw [cstr_id (hz d (by simp))]
              intro hq
              have : d = S.hash nonce pwd := by simpa using hq
              subst this
              exact hk (.digest w nonce ((strnCaseEq_prefix (hz w (by simp))).1 hw) hn)
            exact ⟨_, by simp only [hw, hl, this]; rfl⟩
          · exact ⟨_, by simp only [hw, if_pos hl]; rfl⟩
      · exact ⟨_, by simp only [hw]; rfl⟩
    | _ :: _ :: _ :: _, _, _, _ => exact ⟨_, rfl⟩

theorem nsGet_of_mem {S : Settings} {n : Node} (hi : NodeInv S n) {r : NsRec} (hr : r ∈ recs n) {name : Bytes}
    (hn : r.conf.name = name) : nsGet n name = some r := by
  obtain ⟨d, l, hl, -⟩ := hi.head
  unfold nsGet
  rw [nsIter_recs hl]
  cases hf : (recs n).find? (fun x => x.conf.name == name) with
  | none =>
    have := List.find?_eq_none.1 hf r hr
    simp [hn] at this
  | some x =>
    have h1 := List.mem_of_find?_eq_some hf
    have h2 := List.find?_some hf
    simp only [beq_iff_eq] at h2
    rw [nodup_inj hi.names h1 hr (h2.trans hn.symm)]

/-- C15, arguments without NUL: SELECT of an existing namespace gives read-write access, read-only access, or is
    refused, as the password and the public flag say. -/
theorem C15_select_partial {S : Settings} {n n' : Node} {fd : Nat} {e : Env} {argv : List Bytes} {sent : List (Nat × Msg)}
    {st : Status} (h : Reachable S n) (hs : request S n fd e argv = .ok n' sent st) {name : Bytes} {rest : List Bytes}
    (hp : Asks n fd e argv .select (name :: rest)) (hname : name.length ≤ 128 ∧ (0 : UInt8) ∉ name)
    {c : Client} (hc : getClient n fd = some c) {r : NsRec} (hr : some r ∈ n.slots) (hrn : r.conf.name = name)
    (hz : ∀ b ∈ rest, (0 : UInt8) ∉ b) (hlen : ∀ b ∈ rest, b.length ≤ 255) (hh : ∀ x y, (S.hash x y).length = 40) :
    (FullAccess S c.nonce r.conf rest → GotOk fd sent ∧ SameNode n n' ∧ Moved n n' fd r.uid true) ∧
    (ReadAccess r.conf rest → GotOk fd sent ∧ SameNode n n' ∧ Moved n n' fd r.uid false) ∧
    (¬ FullAccess S c.nonce r.conf rest → ¬ ReadAccess r.conf rest → Refused n n' fd sent) := by
  obtain ⟨p, hp, hsel, ha⟩ := hp
  obtain ⟨hpc, -, u, key, rest0, i0, nm, -, hargs, hlk, -, hhd⟩ := pick_some hp
  have hpc0 := hpc
  rw [hc] at hpc; injection hpc with hpc
  rw [hargs] at ha
  simp only [List.tail_cons] at ha
  subst ha
  have hran := request_ran hs hp
  have hget : nsGet n name = some r := by
    have hi := h.inv
    exact nsGet_of_mem hi (mem_recs.2 hr) hrn
  have harg : nsArg (key :: name :: rest) = .ok name := by
    unfold nsArg
    simp only [List.getElem?_cons_succ, List.getElem?_cons_zero]
    rw [if_neg (by omega), cstr_id hname.2]
  have hrun : ∀ i, runHandler S p.e n { p.c with executed := some i } p.r p.h p.argv =
      match accessOf S { p.c with executed := some i } r.conf (key :: name :: rest) with
      | .error s => sayErr n { p.c with executed := some i } s
      | .ok w => sayOk n { p.c with executed := some i, ns := some r.uid, writable := w } := by
    intro i
    rw [hsel, hargs]
    simp only [runHandler, cmdSelect, harg, hget]
    split <;> rename_i hq <;> rw [hq]
  have hmove : ∀ w, (∀ i, accessOf S { p.c with executed := some i } r.conf (key :: name :: rest) = .ok w) →
      GotOk fd sent ∧ SameNode n n' ∧ Moved n n' fd r.uid w := by
    intro w hw
    obtain ⟨h1, h2, i, h3⟩ := ran_ok hran (fun c => { c with ns := some r.uid, writable := w }) (fun i => by rw [hrun i, hw i])
    exact ⟨h1, h2, p.c, _, hpc0, h3, rfl⟩
  refine ⟨fun hf => hmove true (fun i => ?_), fun hf => hmove false (fun i => ?_), fun h1 h2 => ?_⟩
  · exact access_full hz hlen hh (by rw [hpc] at hf; exact hf)
  · exact access_read hf
  · obtain ⟨n1, c1, m, i, -, -, hr', hn, hsent⟩ := hran.ex
    obtain ⟨s, hs'⟩ := access_none (S := S) (c := { p.c with executed := some i }) (conf := r.conf) (w0 := key) (a := name) hz
      (by rw [hpc] at h1; exact h1) h2
    rw [hrun i, hs'] at hr'
    obtain ⟨rfl, rfl, rfl, -⟩ := say_inj hr'
    have hpost := post_rest p.e fd (putClient n1 fd (some { p.c with executed := some i })) { p.c with executed := some i }
    refine ⟨⟨s, by rw [hsent]; rfl⟩, ?_, p.c, { p.c with executed := some i }, hpc0, ?_, rfl⟩
    · rw [hn]; exact ⟨hpost.2.1, hpost.1, hpost.2.2⟩
    · rw [hn]; exact post_me _ _ _ _

set_option maxRecDepth 100000 in
/-- C15 as stated is false: with the password `s3`, `SELECT foo s3\0x` gives read-write access. -/
theorem C15_refuted : ∃ (n n' : Node) (c : Client) (r : NsRec) (sent : List (Nat × Msg)), Reachable exS n ∧
    getClient n 6 = some c ∧ some r ∈ n.slots ∧ r.conf.name = str "foo" ∧ r.conf.password = some (str "s3") ∧
    request exS n 6 (exE 4) [str "SELECT", str "foo", str "s3" ++ [0, 120]] = .ok n' sent .keep ∧ GotOk 6 sent ∧
    Moved n n' 6 r.uid true :=
  ⟨ranNode exS exPrivate, _, _, (nsDeref (ranNode exS exPrivate) 1001).getD ⟨0, defaultConf [], freshStore .user, []⟩, _,
    ex_reachable exPrivate, rfl, List.mem_cons_of_mem _ (List.mem_cons_self ..), rfl, rfl, rfl, rfl, _, _, rfl, rfl, rfl⟩

set_option maxRecDepth 100000 in
theorem C15_example : ranSent exS (exPrivate ++
    [.request 6 (exE 6) [str "SELECT", str "foo"],
     .request 6 (exE 7) [str "SELECT", str "foo", str "s2"],
     .request 6 (exE 8) [str "SELECT", str "foo", str "s3"],
     .request 6 (exE 9) [str "SELECT", str "default", str "whatever"],
     .request 5 (exE 10) [str "NSSET", str "foo", str "public", str "1"],
     .request 6 (exE 11) [str "SELECT", str "foo"],
     .request 6 (exE 12) [str "SET", str "k", str "w"]]) = ranSent exS exPrivate ++
    [[(6, .reply (.err "Namespace protected and private"))], [(6, .reply (.err "Access denied"))], [(6, .reply .ok)],
     [(6, .reply .ok)], [(5, .reply .ok)], [(6, .reply .ok)], [(6, .reply (.err "Namespace is in read-only mode"))]] := rfl

/-! ### C16 -/

set_option maxRecDepth 100000 in
/-- C16 does not hold for SELECT: a recorded answer is accepted again. -/
theorem C16_refuted : ranSent exS (exPrivate ++
    [.request 6 (exE 6) [str "AUTH", str "SECURE", str "CHALLENGE"],
     .request 6 (exE 7) [str "SELECT", str "foo", str "SECURE", exDigest 6 (str "s3")],
     .request 6 (exE 8) [str "SELECT", str "default"],
     .request 6 (exE 9) [str "SELECT", str "foo", str "SECURE", exDigest 6 (str "s3")]]) = ranSent exS exPrivate ++
    [[(6, .challenge (exE 6).nonce)], [(6, .reply .ok)], [(6, .reply .ok)], [(6, .reply .ok)]] := rfl

set_option maxRecDepth 100000 in
/-- C16 does not hold for AUTH SECURE with an answer of another length than 40: the challenge stays valid. -/
theorem C16_length_refuted : ranSent exS (exPrivate ++
    [.request 6 (exE 6) [str "AUTH", str "SECURE", str "CHALLENGE"],
     .request 6 (exE 7) [str "AUTH", str "SECURE", str "guess"],
     .request 6 (exE 8) [str "AUTH", str "SECURE", exDigest 6 (str "pw")]]) = ranSent exS exPrivate ++
    [[(6, .challenge (exE 6).nonce)], [(6, .reply (.err "Invalid hash length"))], [(6, .reply .ok)]] := rfl

/-- A request with an answer to a challenge: AUTH with a word and 40 bytes. -/
def SecureAuth (n : Node) (fd : Nat) (e : Env) (argv : List Bytes) : Prop :=
  ∃ w d, Asks n fd e argv .auth [w, d] ∧ d.length = 40

/-- The client holds no challenge. -/
def NoChallenge (n : Node) (fd : Nat) : Prop := ∃ c, getClient n fd = some c ∧ c.nonce = none

/-- C16, for AUTH: after an answer of 40 bytes was accepted, or refused as wrong, the challenge is gone. -/
theorem C16_auth_consumes_partial {S : Settings} {n n' : Node} {fd : Nat} {e : Env} {argv : List Bytes} {sent : List (Nat × Msg)}
    {st : Status} (hs : request S n fd e argv = .ok n' sent st) (hp : SecureAuth n fd e argv)
    (hsent : GotOk fd sent ∨ sent.head? = some (fd, .reply (.err "Access denied"))) : NoChallenge n' fd := by
  obtain ⟨w, d, ⟨p, hp, hh, ha⟩, hl⟩ := hp
  obtain ⟨n1, c1, m, i, -, -, hr, hn, hsent'⟩ := (request_ran hs hp).ex
  obtain ⟨hpc, -, u, key, rest0, i0, nm, -, hargs, hlk, -, hhd⟩ := pick_some hp
  rw [hargs] at ha
  simp only [List.tail_cons] at ha
  subst ha
  refine ⟨c1, by rw [hn]; exact post_me _ _ _ _, ?_⟩
  have hm : m = some (.reply .ok) ∨ m = errMsg "Access denied" := by
    cases m with
    | none =>
      exfalso
      have hx : ∃ y, sent.head? = some (fd, .reply y) := by
        rcases hsent with h | h
        · exact ⟨_, h⟩
        · exact ⟨_, h⟩
      obtain ⟨y, hx⟩ := hx
      have hmem : (fd, Msg.reply y) ∈ sent := List.mem_of_mem_head? (by rw [hx]; rfl)
      rw [hsent'] at hmem
      simp only [Option.toList_none, List.map_nil, List.nil_append] at hmem
      unfold post at hmem
      cases hex : c1.executed with
      | none => rw [hex] at hmem; simp at hmem
      | some j =>
        rw [hex] at hmem
        simp only at hmem
        rw [notifyAll_mem] at hmem
        obtain ⟨_, _, _, _, hne, _⟩ := hmem
        exact hne rfl
    | some m =>
      rw [hsent'] at hsent
      rcases hsent with h | h
      · left
        unfold GotOk at h
        simpa using h
      · right
        simpa [errMsg] using h
  rw [hh, hargs] at hr
  simp only [runHandler, cmdAuth, List.length_cons, List.length_nil, Nat.reduceAdd, Nat.reduceEqDiff, if_false, if_true, cmdAuthSecure,
    sayErr, sayOk] at hr
  have bad : ∀ (c0 : Client) (s : String), s ≠ "Access denied" → say n c0 (errMsg s) = .done n1 c1 m st → False := by
    intro c0 s hne hq
    obtain ⟨-, -, h3, -⟩ := say_inj hq
    rw [h3] at hm
    rcases hm with hm | hm
    · simp [errMsg, Reply.ok] at hm
    · simp only [errMsg, Option.some.injEq, Msg.reply.injEq, Reply.err.injEq] at hm; exact hne hm
  cases hv : argsValidate [key, w, d] 3 with
  | some x =>
    exfalso
    rw [hv] at hr
    obtain ⟨y, rfl⟩ := argsValidate_err' hv
    refine bad _ y ?_ hr
    unfold argsValidate at hv
    split at hv
    · injection hv with hv; simp [errArgs] at hv; rw [← hv]; decide
    · split at hv
      · injection hv with hv; injection hv with hv; rw [← hv]; decide
      · exact absurd hv (by simp)
  | none =>
    rw [hv] at hr
    simp only at hr
    split at hr
    · exact absurd hr (fun h => bad _ _ (by decide) h)
    · split at hr
      · obtain ⟨-, -, h3, -⟩ := say_inj hr
        rw [h3] at hm; simp [errMsg] at hm
      · split at hr
        · exact absurd hr (fun h => bad _ _ (by decide) h)
        · split at hr
          · exact absurd hr (fun h => bad _ _ (by decide) h)
          · rw [if_neg (by omega)] at hr
            split at hr
            · rw [(say_inj hr).2.1]
            · rw [(say_inj hr).2.1]

/-- A challenge is sent to `fd`. -/
def Challenged (fd : Nat) (x : Event × List (Nat × Msg)) : Prop :=
  ∃ e argv y, x.1 = .request fd e argv ∧ x.2.head? = some (fd, .challenge y)

theorem noChallenge_step {S : Settings} {n n' : Node} {ev : Event} {sent : List (Nat × Msg)} {st : Status}
    (hs : nodeStep S n ev = .ok n' sent st) {fd : Nat} (hno : NoChallenge n fd) (hst : Stays fd ev) (hch : ¬ Challenged fd (ev, sent)) :
    NoChallenge n' fd := by
  obtain ⟨c, hc, hn⟩ := hno
  obtain ⟨c', hc'⟩ := client_kept hs hst hc
  refine ⟨c', hc', ?_⟩
  rcases client_step hs hc' with ⟨rfl, -⟩ | ⟨c0, hc0, hr | hb⟩
  · exact absurd rfl hst
  · rw [hc] at hc0; injection hc0 with hc0; subst hc0
    obtain ⟨e, argv, p, i, m, n1, rest, rfl, hp, hpc, -, -, hce, hsent, -⟩ := hr.ex
    generalize p.h = ph at hce
    cases hce with
    | challenge => exact absurd ⟨e, argv, _, rfl, by rw [hsent]; rfl⟩ hch
    | secure => rfl
    | refused => rfl
    | _ => exact hn
  · rw [hc] at hc0; injection hc0 with hc0; subst hc0
    rw [hb.nonce]; exact hn

/-- A client without challenge gets no right by an answer to a challenge. -/
theorem noChallenge_refused {S : Settings} {n n' : Node} {fd : Nat} {e : Env} {argv : List Bytes} {sent : List (Nat × Msg)}
    {st : Status} (hs : request S n fd e argv = .ok n' sent st) (hno : NoChallenge n fd) {w d : Bytes}
    (hp : Asks n fd e argv .auth [w, d]) : ¬ GotOk fd sent := by
  intro hok
  obtain ⟨p, hp, hh, ha⟩ := hp
  obtain ⟨c, hc, hn⟩ := hno
  obtain ⟨hpc, -, u, key, rest0, i0, nm, -, hargs, hlk, -, hhd⟩ := pick_some hp
  rw [hc] at hpc; injection hpc with hpc
  rw [hargs] at ha
  simp only [List.tail_cons] at ha
  subst ha
  obtain ⟨n1, c1, m, i, -, -, hr, hn', hsent⟩ := (request_ran hs hp).ex
  have hpn : p.c.nonce = none := by rw [← hpc]; exact hn
  have hm : m ≠ some (.reply .ok) := by
    rw [hh, hargs] at hr
    simp only [runHandler, cmdAuth, List.length_cons, List.length_nil, Nat.reduceAdd, Nat.reduceEqDiff, if_false, if_true, cmdAuthSecure,
      sayErr, sayOk, hpn] at hr
    cases hv : argsValidate [key, w, d] 3 with
    | some x =>
      obtain ⟨s, rfl⟩ := argsValidate_err' hv
      rw [hv] at hr
      rw [(say_inj hr).2.2.1]; simp [Reply.ok]
    | none =>
      rw [hv] at hr
      simp only at hr
      repeat' split at hr
      all_goals (rw [(say_inj hr).2.2.1]; simp [Reply.ok, errMsg])
  cases m with
  | none =>
    unfold GotOk at hok
    have hmem : (fd, Msg.reply .ok) ∈ sent := List.mem_of_mem_head? (by rw [hok]; rfl)
    rw [hsent] at hmem
    simp only [Option.toList_none, List.map_nil, List.nil_append] at hmem
    unfold post at hmem
    cases hex : c1.executed with
    | none => rw [hex] at hmem; simp at hmem
    | some j =>
      rw [hex] at hmem
      simp only at hmem
      rw [notifyAll_mem] at hmem
      obtain ⟨_, _, _, _, hne, _⟩ := hmem
      exact hne rfl
  | some m =>
    apply hm
    unfold GotOk at hok
    rw [hsent] at hok
    simpa using hok

/-- C16, for AUTH: an answer of 40 bytes to a challenge ends it.  Whatever this client and the others do afterwards, every AUTH
    of this connection with an answer is refused until a new challenge is sent to it. -/
theorem C16_no_replay_partial {S : Settings} {n n1 n' : Node} {fd : Nat} {e : Env} {argv : List Bytes} {sent : List (Nat × Msg)}
    {st : Status} {l : List (Event × List (Nat × Msg))} (hs : request S n fd e argv = .ok n1 sent st) (hp : SecureAuth n fd e argv)
    (hsent : GotOk fd sent ∨ sent.head? = some (fd, .reply (.err "Access denied")))
    (hl : NodeRun S n1 l n') (hst : ∀ x ∈ l, Stays fd x.1) (hch : ∀ x ∈ l, ¬ Challenged fd x)
    {n'' : Node} {e' : Env} {argv' : List Bytes} {sent' : List (Nat × Msg)} {st' : Status}
    (hs' : request S n' fd e' argv' = .ok n'' sent' st') {w d : Bytes} (hp' : Asks n' fd e' argv' .auth [w, d]) :
    ¬ GotOk fd sent' := by
  have h1 := C16_auth_consumes_partial hs hp hsent
  have h2 : NoChallenge n' fd := by
    clear hs hp hsent hs' hp'
    induction hl with
    | nil => exact h1
    | @cons n n1 n2 ev sent st l hg hs h ih =>
      exact ih (fun x hx => hst x (List.mem_cons_of_mem _ hx)) (fun x hx => hch x (List.mem_cons_of_mem _ hx))
        (noChallenge_step hs h1 (hst _ (List.mem_cons_self ..)) (hch _ (List.mem_cons_self ..)))
  exact noChallenge_refused hs' h2 hp'

end Zdb
