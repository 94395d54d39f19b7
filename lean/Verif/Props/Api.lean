/-
C26, C44: the library calls.
-/
import Verif.Spec.Api
import Verif.Props.UserMap
namespace Zdb

theorem apiKey_of_short {k : Bytes} (h : k.length < 256) : apiKey k = k := by
  rw [apiKey, Nat.mod_eq_of_lt h, List.take_length]

theorem api_set {c : Ctx} (hc : CtxOK c) (hf : Free c) {br : Branches} {s : Store} {G : Log} (h : UInv br c.u s G)
    (hcap : s.ifiles.length < 2 ^ 32) {name k p : Bytes} (hk0 : k ≠ []) (hk : k.length < 256) (hp : p.length < 2 ^ 32)
    (hn : NoCollision c br s (.set k p)) :
    (apiSet (some .user) c br s k p).1 = (dsCommand c br s .set [name, k, p]).1 ∧
    (apiSet (some .user) c br s k p).2.1 = (dsCommand c br s .set [name, k, p]).2.1 ∧
    ApiSame (.set k p) (apiSet (some .user) c br s k p).2.2 (dsCommand c br s .set [name, k, p]).2.2 := by
  have hl0 : k.length ≠ 0 := fun e => hk0 (List.length_eq_zero_iff.1 e)
  have hts : timestampFromSet c.now [name, k, p] 3 = c.now % 2 ^ 32 := rfl
  have hw : (!c.writable) = false := by rw [hf.writable]; rfl
  have hfr : c.conf.isFrozen = false := by rw [NsConf.isFrozen, hf.lock]; rfl
  have hlk : c.conf.isLocked = false := by rw [NsConf.isLocked, hf.lock]; rfl
  have h255 : ¬ k.length > 255 := by omega
  simp only [dsCommand, cmdSet, cmdSet.body, apiSet, apiKey_of_short hk, hw, hfr, hlk, hf.worm, h255, hl0, h.mode, hts,
    ne_eq, not_false_eq_true, if_true, if_false, Bool.false_eq_true, Bool.and_false]
  by_cases hq : overQuota c.conf s.datasize p.length (floatingOf (indexGet br s c.u k)) = true
  · rw [if_pos hq, if_pos hq]
    exact ⟨rfl, rfl, rfl⟩
  · rw [if_neg hq, if_neg hq]
    obtain ⟨G1, i1, -, i3, -⟩ := jumpIfFull_spec h hcap c.limit p.length hc.limit
    have hup : apiUpToDate (indexGet br s c.u k) p = upToDate (jumpIfFull c.limit s p.length) (indexGet br s c.u k) p := by
      have hg := getSingle_spec h k
      rw [h.indexGet]
      rw [absKV_get] at hg
      cases hl : liveGet G k with
      | none => rfl
      | some l =>
        have hr := i1.get (k := k) (l := l) (by rw [i3]; exact hl)
        rw [Option.map_some, upToDate_iff hr p hp]
        rw [hl] at hg
        simp only [apiUpToDate, Loc.entry, hr.crc]
        have := hn l.r.payload hg
        by_cases he : l.r.payload = p
        · simp [he]
        · simp [he]
          exact fun e => he (this e)
    generalize jumpIfFull c.limit s p.length = s1 at hup ⊢
    generalize indexGet br s c.u k = e at hup ⊢
    simp only [apiSetUser, setHandlerUser, apiKey_of_short hk, hl0, if_false, hup]
    by_cases hu : upToDate s1 e p = true
    · rw [if_pos hu, if_pos hu]
      exact ⟨rfl, rfl, rfl⟩
    · rw [if_neg hu, if_neg hu]
      generalize c.now % 2 ^ 32 = ts
      generalize dataInsert s1 c.io k p 0 (crc32 p) ts = x
      obtain ⟨s2, off⟩ := x
      dsimp only
      by_cases ho : off = 0
      · rw [if_pos ho, if_pos ho]
        exact ⟨rfl, rfl, rfl⟩
      · rw [if_neg ho, if_neg ho]
        cases e with
        | none =>
          dsimp only
          generalize insertUser br s2 c.u c.io _ = y
          obtain ⟨b, t, ok⟩ := y
          cases ok <;> exact ⟨rfl, rfl, rfl⟩
        | some ex =>
          dsimp only
          by_cases hok : (updateUser br s2 c.u c.io
              { id := k, offset := off, length := p.length, crc := crc32 p, dataid := 0, timestamp := ts } ex).2.2 = true
          · rw [if_pos hok, if_pos hok]
            exact ⟨rfl, rfl, rfl⟩
          · rw [if_neg hok, if_neg hok]
            exact ⟨rfl, rfl, rfl⟩

theorem api_del {c : Ctx} (hf : Free c) (br : Branches) (s : Store) {name k : Bytes} (hn : name ≠ []) (hk0 : k ≠ [])
    (hk : k.length < 256) :
    (apiDel c br s k).1 = (dsCommand c br s .del [name, k]).1 ∧
    (apiDel c br s k).2.1 = (dsCommand c br s .del [name, k]).2.1 ∧
    ApiSame (.del k) (apiDel c br s k).2.2 (dsCommand c br s .del [name, k]).2.2 := by
  have hts : timestampFromSet c.now [name, k] 2 = c.now % 2 ^ 32 := rfl
  have hw : (!c.writable) = false := by rw [hf.writable]; rfl
  have hfr : c.conf.isFrozen = false := by rw [NsConf.isFrozen, hf.lock]; rfl
  have hlk : c.conf.isLocked = false := by rw [NsConf.isLocked, hf.lock]; rfl
  have h255 : ¬ k.length > 255 := by omega
  have hv : argsValidate [name, k] 2 = none := by simp [argsValidate, hn, hk0]
  simp only [dsCommand, cmdDel, cmdDel.body, apiDel, apiKey_of_short hk, hw, hfr, hlk, hf.worm, h255, hts, hv,
    if_false, Bool.false_eq_true]
  cases indexGet br s c.u k with
  | none => exact ⟨rfl, rfl, rfl⟩
  | some e =>
    dsimp only
    generalize dataInsert s c.io e.id [] 1 0 (c.now % 2 ^ 32) = x
    obtain ⟨s2, off⟩ := x
    dsimp only
    by_cases ho : off = 0
    · rw [if_pos ho, if_pos ho]
      exact ⟨rfl, rfl, .inl rfl⟩
    · rw [if_neg ho, if_neg ho]
      generalize indexDelete br s2 c.u c.io e = y
      obtain ⟨b, t, ok⟩ := y
      cases ok
      · exact ⟨rfl, rfl, .inr rfl⟩
      · exact ⟨rfl, rfl, rfl⟩

/-- C44.  In every state of a user-key namespace, a library call leaves exactly the table and the files that the command with
    the same key and payload leaves, and returns what the command answers.  Missing: payloads with the checksum of
    the stored one (`NoCollision`), keys longer than 255 bytes, namespaces that refuse writing, the mixed mode
    (see the refutations). -/
theorem C44_partial {u : Nat} {tr : List (NsEvent × Reply)} {br : Branches} {s : Store} (h : UserRun (some .user) u tr br s)
    (hlen : tr.length < maxEvents) {c : Ctx} (hcu : c.u = u) (hc : CtxOK c) (hf : Free c) (a : ApiCall) {name : Bytes}
    (hname : name ≠ []) (hk0 : a.key ≠ []) (hk : a.key.length < 256) (ha : ArgsOK (a.argv name)) (hn : NoCollision c br s a) :
    (apiCall (some .user) c br s a).1 = (dsCommand c br s a.cmd (a.argv name)).1 ∧
    (apiCall (some .user) c br s a).2.1 = (dsCommand c br s a.cmd (a.argv name)).2.1 ∧
    ApiSame a (apiCall (some .user) c br s a).2.2 (dsCommand c br s a.cmd (a.argv name)).2.2 := by
  obtain ⟨G, hi, -, -⟩ := h.inv
  subst hcu
  have hfr : c.conf.isFrozen = false := by rw [NsConf.isFrozen, hf.lock]; rfl
  cases a with
  | set k p =>
    have hp : p.length < 2 ^ 32 := by
      have := ha.size p (by simp [ApiCall.argv])
      omega
    have hl := hi.irep.length
    have hr := h.room hi hlen
    exact api_set hc hf hi (by omega) hk0 hk hp hn
  | get k =>
    have hv : argsValidate [name, k] 2 = none := by
      have hk0' : k ≠ [] := hk0
      simp [argsValidate, hname, hk0']
    have h255 : ¬ k.length > 255 := by
      have : k.length < 256 := hk
      omega
    have hk' : apiKey k = k := apiKey_of_short hk
    simp only [apiCall, ApiCall.cmd, ApiCall.argv, dsCommand, cmdGet, readChecks, hv, h255, hfr, if_false, Bool.false_eq_true,
      apiGet, getSingle, hk']
    refine ⟨trivial, trivial, ?_⟩
    cases indexGet br s c.u k with
    | none => rfl
    | some e =>
      dsimp only
      cases dataGet s e.offset e.length e.dataid e.id.length with
      | none => rfl
      | some p => exact ⟨rfl, rfl⟩
  | «exists» k =>
    have hv : argsValidate [name, k] 2 = none := by
      have hk0' : k ≠ [] := hk0
      simp [argsValidate, hname, hk0']
    have h255 : ¬ k.length > 255 := by
      have : k.length < 256 := hk
      omega
    have hk' : apiKey k = k := apiKey_of_short hk
    simp only [apiCall, ApiCall.cmd, ApiCall.argv, dsCommand, cmdExists, readChecks, hv, h255, hfr, if_false, Bool.false_eq_true,
      apiExists, hk']
    refine ⟨trivial, trivial, ?_⟩
    cases indexGet br s c.u k <;> rfl
  | del k => exact api_del hf br s hname hk0 hk
  | check k =>
    have hv : argsValidate [name, k] 2 = none := by
      have hk0' : k ≠ [] := hk0
      simp [argsValidate, hname, hk0']
    have h255 : ¬ k.length > 255 := by
      have : k.length < 256 := hk
      omega
    have hk' : apiKey k = k := apiKey_of_short hk
    simp only [apiCall, ApiCall.cmd, ApiCall.argv, dsCommand, cmdCheck, readChecks, hv, h255, hfr, if_false, Bool.false_eq_true,
      apiCheck, hk']
    refine ⟨trivial, trivial, ?_⟩
    have hx := hi.indexGet k
    cases hl : liveGet G k with
    | none => rw [hl] at hx; rw [hx]; rfl
    | some l =>
      rw [hl] at hx
      rw [hx]
      have := (hi.get hl).dataCheck
      simp only [Option.map_some, Loc.entry]
      rw [this]
      rfl

/-- C44, for sequences of calls: the calls of a library user are an execution of the commands, so that all that is proved of the
    executions of a user-key namespace (C01 and the others) holds for them. -/
theorem C44_calls_partial {u : Nat} {name : Bytes} (hname : name ≠ []) {l : List (Ctx × ApiCall × ApiReply)}
    {br br' : Branches} {s s' : Store} (hl : ApiRun u br s l br' s') {tr : List (NsEvent × Reply)}
    (h : UserRun (some .user) u tr br s) (hlen : tr.length + l.length ≤ maxEvents)
    (hc : ∀ x ∈ l, CtxOK x.1 ∧ Free x.1 ∧ x.2.1.key ≠ [] ∧ x.2.1.key.length < 256 ∧ ArgsOK (x.2.1.argv name)) :
    ∃ tr', UserRun (some .user) u (tr ++ tr') br' s' ∧
      tr'.map (·.1) = l.map (fun x => .cmd x.1 x.2.1.cmd (x.2.1.argv name)) ∧
      ∀ (i : Nat) (x : Ctx × ApiCall × ApiReply) (y : NsEvent × Reply), l[i]? = some x → tr'[i]? = some y → ApiSame x.2.1 x.2.2 y.2 := by
  induction hl generalizing tr with
  | nil br s => exact ⟨[], by simpa using h, rfl, by simp⟩
  | @call br br1 br2 s s1 s2 c a r l hu hn h1 hl ih =>
    obtain ⟨k1, k2, k3, k4, k5⟩ := hc _ (List.mem_cons_self ..)
    simp only [List.length_cons] at hlen
    obtain ⟨e1, e2, e3⟩ := C44_partial h (by omega) hu k1 k2 a hname k3 k4 k5 hn
    rw [h1] at e1 e2 e3
    generalize hd : dsCommand c br s a.cmd (a.argv name) = d at e1 e2 e3
    obtain ⟨b, t, r'⟩ := d
    dsimp only at e1 e2 e3
    subst e1; subst e2
    have hx := h.snoc (x := (.cmd c a.cmd (a.argv name), r')) (by omega) ⟨k1, k5⟩ (.cmd c a.cmd (a.argv name) hu hd (.nil _ _))
    obtain ⟨tr', i1, i2, i3⟩ := ih hx (by simp; omega) (fun x hx => hc x (List.mem_cons_of_mem _ hx))
    refine ⟨(.cmd c a.cmd (a.argv name), r') :: tr', by simpa using i1, by simp [i2], ?_⟩
    intro i x y hx hy
    cases i with
    | zero =>
      simp only [List.getElem?_cons_zero, Option.some.injEq] at hx hy
      subst hx; subst hy
      exact e3
    | succ i =>
      simp only [List.getElem?_cons_succ] at hx hy
      exact i3 i x y hx hy

/-- C26 for the library call: a call is answered up to date only if GET returns a payload with the checksum of the one
    given.  Missing: that the two are equal (`C26_api_refuted`). -/
theorem C26_api_partial {u : Nat} {tr : List (NsEvent × Reply)} {br : Branches} {s : Store} (h : UserRun (some .user) u tr br s)
    {c : Ctx} (hcu : c.u = u) {k p : Bytes} (hk : k.length < 256) (hr : (apiSet (some .user) c br s k p).2.2 = .upToDate) :
    ∃ old, getSingle c br s k = .bulk old ∧ crc32 old = crc32 p := by
  obtain ⟨G, hi, -, -⟩ := h.inv
  subst hcu
  have hg := getSingle_spec hi k
  have hx := hi.indexGet k
  have hset : ∀ (s' : Store) (e : Option Entry), (apiSetUser c br s' k p e).2.2 = .upToDate → k.length ≠ 0 ∧ apiUpToDate e p = true := by
    intro s' e h1
    unfold apiSetUser at h1
    split at h1
    · simp at h1
    · next hk0 =>
      refine ⟨hk0, ?_⟩
      split at h1
      · assumption
      · dsimp only at h1
        split at h1
        · simp at h1
        · exfalso
          cases e with
          | none => dsimp only at h1; split at h1 <;> simp at h1
          | some e => dsimp only at h1; split at h1 <;> simp at h1
  have hup : apiUpToDate (indexGet br s c.u k) p = true := by
    unfold apiSet at hr
    rw [apiKey_of_short hk] at hr
    dsimp only at hr
    generalize he : (if k.length ≠ 0 then indexGet br s c.u k else none) = e at hr
    by_cases hq : overQuota c.conf s.datasize p.length (floatingOf e) = true
    · rw [if_pos hq] at hr; simp at hr
    · rw [if_neg hq] at hr
      obtain ⟨hk0, h2⟩ := hset _ _ hr
      rw [if_pos hk0] at he
      rw [he]; exact h2
  rw [hx] at hup
  rw [absKV_get] at hg
  cases hl : liveGet G k with
  | none => rw [hl] at hup; simp [apiUpToDate] at hup
  | some l =>
    rw [hl] at hup hg
    have hc := (hi.get hl).crc
    simp only [Option.map_some, apiUpToDate, Loc.entry, hc, beq_iff_eq] at hup
    exact ⟨_, hg, hup⟩

/-! ### where the claims fail -/

set_option maxRecDepth 100000 in
/-- Two payloads with the same checksum: the second is not stored.  (A zero byte in front does not change the checksum.) -/
theorem C44_checksum_refuted :
    let x := runCmds (fun _ => []) (freshStore .user) [(exCtx, .set, [str "SET", str "a", str "x"])]
    let y := apiSet (some .user) exCtx x.1 x.2.1 (str "a") (0 :: str "x")
    let z := dsCommand exCtx x.1 x.2.1 .set [str "SET", str "a", 0 :: str "x"]
    y.2.2 = .upToDate ∧ apiGet exCtx y.1 y.2.1 (str "a") = .entry (str "a") (str "x") ∧
    z.2.2 = .bulk (str "a") ∧ getSingle exCtx z.1 z.2.1 (str "a") = .bulk (0 :: str "x") := by
  refine ⟨?_, ?_, ?_, ?_⟩ <;> rfl

theorem userRun_of_cmds_user (l : List (Ctx × DsCmd × List Bytes)) (hu : ∀ x ∈ l, x.1.u = 7)
    (hc : ∀ x ∈ l, CtxOK x.1) (ha : ∀ x ∈ l, ArgsOK x.2.2) (hl : l.length ≤ maxEvents) :
    UserRun (some .user) 7 (traceOf (fun _ => []) (freshStore .user) l)
      (runCmds (fun _ => []) (freshStore .user) l).1 (runCmds (fun _ => []) (freshStore .user) l).2.1 where
  hcfg := Or.inr rfl
  run := ⟨fun _ => [], fun _ => [], freshStore .user, fun _ => rfl, freshNs_eq (some .user) _ 7, runCmds_run (some .user) 7 l hu _ _⟩
  ev := by
    intro x hx
    obtain ⟨y, hy, he⟩ := mem_traceOf hx
    rw [he]; exact ⟨hc y hy, ha y hy⟩
  len := by rw [traceOf_length]; exact hl

/-- A key was stored by the daemon. -/
def exApi : List (Ctx × DsCmd × List Bytes) := [(exCtx, .set, [str "SET", str "a", str "x"])]

theorem exApi_run : UserRun (some .user) 7 (traceOf (fun _ => []) (freshStore .user) exApi)
    (runCmds (fun _ => []) (freshStore .user) exApi).1 (runCmds (fun _ => []) (freshStore .user) exApi).2.1 := by
  refine userRun_of_cmds_user exApi ?_ ?_ ?_ (by decide)
  · intro x hx; rw [List.mem_singleton.1 hx]; rfl
  · intro x hx; rw [List.mem_singleton.1 hx]; exact exCtx_ok
  · intro x hx
    rw [List.mem_singleton.1 hx]
    exact ⟨⟨str "SET", [str "a", str "x"], rfl, by decide⟩, by decide⟩

set_option maxRecDepth 100000 in
/-- C26 for the library call: the call is skipped though the payload differs. -/
theorem C26_api_refuted : ∃ br s, (∃ tr, UserRun (some .user) 7 tr br s) ∧
    (apiSet (some .user) exCtx br s (str "a") (0 :: str "x")).2.2 = .upToDate ∧
    getSingle exCtx br s (str "a") = .bulk (str "x") :=
  ⟨_, _, ⟨_, exApi_run⟩, rfl, rfl⟩

set_option maxRecDepth 100000 in
/-- The conditions are met by calls that store, overwrite, read and delete. -/
theorem exApi_calls : ∃ br s l, ApiRun 7 (runCmds (fun _ => []) (freshStore .user) exApi).1
      (runCmds (fun _ => []) (freshStore .user) exApi).2.1 l br s ∧
    l = [(exCtx, .set (str "a") (str "y"), .buffer (str "a")), (exCtx, .set (str "a") (str "y"), .upToDate),
      (exCtx, .get (str "a"), .entry (str "a") (str "y")), (exCtx, .del (str "a"), .success),
      (exCtx, .exists (str "a"), .no)] ∧
    ∀ x ∈ l, CtxOK x.1 ∧ Free x.1 ∧ x.2.1.key ≠ [] ∧ x.2.1.key.length < 256 ∧ ArgsOK (x.2.1.argv (str "CALL")) := by
  refine ⟨_, _, _, .call (c := exCtx) (a := .set (str "a") (str "y")) (r := .buffer (str "a")) rfl ?_ rfl
    (.call (c := exCtx) (a := .set (str "a") (str "y")) (r := .upToDate) rfl ?_ rfl
    (.call (c := exCtx) (a := .get (str "a")) (r := .entry (str "a") (str "y")) rfl trivial rfl
    (.call (c := exCtx) (a := .del (str "a")) (r := .success) rfl trivial rfl
    (.call (c := exCtx) (a := .exists (str "a")) (r := .no) rfl trivial rfl (.nil _ _))))), rfl, ?_⟩
  · intro old ho hcr
    have h0 : getSingle exCtx (runCmds (fun _ => []) (freshStore .user) exApi).1
      (runCmds (fun _ => []) (freshStore .user) exApi).2.1 (str "a") = .bulk (str "x") := rfl
    rw [h0] at ho
    injection ho with ho
    subst ho
    exact absurd hcr (by decide +kernel)
  · intro old ho hcr
    have h0 : getSingle exCtx (apiSet (some .user) exCtx (runCmds (fun _ => []) (freshStore .user) exApi).1
      (runCmds (fun _ => []) (freshStore .user) exApi).2.1 (str "a") (str "y")).1 (apiSet (some .user) exCtx (runCmds (fun _ => []) (freshStore .user) exApi).1
      (runCmds (fun _ => []) (freshStore .user) exApi).2.1 (str "a") (str "y")).2.1 (str "a") = .bulk (str "y") := rfl
    have h1 := h0.symm.trans ho
    injection h1 with h1
    exact h1.symm
  · intro x hx
    simp only [List.mem_cons, List.not_mem_nil, or_false] at hx
    have hF : Free exCtx := ⟨rfl, rfl, rfl⟩
    have hA : ∀ (a : ApiCall), (∀ b ∈ a.argv (str "CALL"), b.length ≤ 2 ^ 23) → ArgsOK (a.argv (str "CALL")) := by
      intro a ha
      cases a <;> exact ⟨⟨str "CALL", _, rfl, by decide⟩, ha⟩
    rcases hx with rfl | rfl | rfl | rfl | rfl <;>
      exact ⟨exCtx_ok, hF, by decide, by decide, hA _ (by decide)⟩

set_option maxRecDepth 100000 in
/-- The length of a key is cut to eight bits: a call with a key of 257 bytes overwrites the key of one byte, which
    the daemon refuses. -/
theorem C44_key_refuted :
    let x := runCmds (fun _ => []) (freshStore .user) [(exCtx, .set, [str "SET", str "a", str "one"])]
    let y := apiSet (some .user) exCtx x.1 x.2.1 (List.replicate 257 97) (str "two")
    y.2.2 = .buffer (List.replicate 257 97) ∧ getSingle exCtx y.1 y.2.1 (str "a") = .bulk (str "two") ∧
    (dsCommand exCtx x.1 x.2.1 .set [str "SET", List.replicate 257 97, str "two"]).2.2 = .err "Key too large" := by
  refine ⟨?_, ?_, ?_⟩ <;> rfl

set_option maxRecDepth 100000 in
/-- The worm mode is not looked at: the call overwrites a key that the daemon refuses to. -/
theorem C44_worm_refuted :
    let c : Ctx := { exCtx with conf := { exCtx.conf with worm := true } }
    let x := runCmds (fun _ => []) (freshStore .user) [(c, .set, [str "SET", str "a", str "one"])]
    let y := apiSet (some .user) c x.1 x.2.1 (str "a") (str "two")
    y.2.2 = .buffer (str "a") ∧ getSingle c y.1 y.2.1 (str "a") = .bulk (str "two") ∧
    (dsCommand c x.1 x.2.1 .set [str "SET", str "a", str "two"]).2.2 = .err "Namespace is protected by worm mode" := by
  refine ⟨?_, ?_, ?_⟩ <;> rfl

set_option maxRecDepth 100000 in
/-- The lock is not looked at: the call overwrites a key of a namespace that is locked, the daemon does not. -/
theorem C44_lock_refuted :
    let c : Ctx := { exCtx with conf := { exCtx.conf with lock := .locked } }
    let x := runCmds (fun _ => []) (freshStore .user) [(exCtx, .set, [str "SET", str "a", str "one"])]
    let y := apiSet (some .user) c x.1 x.2.1 (str "a") (str "two")
    y.2.2 = .buffer (str "a") ∧ getSingle c y.1 y.2.1 (str "a") = .bulk (str "two") ∧
    dsCommand c x.1 x.2.1 .set [str "SET", str "a", str "two"] = (x.1, x.2.1, errLocked) := by
  refine ⟨?_, ?_, ?_⟩ <;> rfl

/-- The empty key: both refuse it in any state, and the table stays as it is. -/
theorem C44_empty_key (c : Ctx) (br : Branches) (s : Store) (name p : Bytes) (hs : s.mode = .user) :
    (∃ m, (apiSet (some .user) c br s [] p).2.2 = .failure m) ∧ (apiSet (some .user) c br s [] p).1 = br ∧
    (∃ m, (dsCommand c br s .set [name, [], p]).2.2 = .err m) ∧ (dsCommand c br s .set [name, [], p]).1 = br := by
  have h1 : ∃ m s', apiSet (some .user) c br s [] p = (br, s', .failure m) := by
    unfold apiSet
    dsimp only
    repeat' split
    all_goals exact ⟨_, _, rfl⟩
  have h2 : ∃ m s', dsCommand c br s .set [name, [], p] = (br, s', .err m) := by
    show ∃ m s', cmdSet.body c br s [name, [], p] [] p = (br, s', .err m)
    unfold cmdSet.body
    rw [hs]
    dsimp only
    repeat' split
    all_goals first | exact ⟨_, _, rfl⟩ | (rename_i h; cases h)
  obtain ⟨m, s1, e1⟩ := h1
  obtain ⟨m', s2, e2⟩ := h2
  rw [e1, e2]
  exact ⟨⟨m, rfl⟩, rfl, ⟨m', rfl⟩, rfl⟩

/-- CHECK in any state, also when the files are damaged: the call returns false exactly when the command answers 0, and
    nothing is found by one exactly when nothing is by the other.  (That it returns true also when the payload cannot be
    read is `C44_check_refuted`.) -/
theorem C44_check_partial (c : Ctx) (br : Branches) (s : Store) (hf : c.conf.lock ≠ .frozen) {name k : Bytes}
    (hname : name ≠ []) (hk0 : k ≠ []) (hk : k.length < 256) :
    (apiCheck c br s k = .no ↔ cmdCheck c br s [name, k] = .int 0) ∧
    (apiCheck c br s k = .notFound ↔ cmdCheck c br s [name, k] = .nil) := by
  have hv : argsValidate [name, k] 2 = none := by simp [argsValidate, hname, hk0]
  have h255 : ¬ k.length > 255 := by omega
  have hfr : c.conf.isFrozen = false := by simp [NsConf.isFrozen, hf]
  have hk' : apiKey k = k := apiKey_of_short hk
  simp only [cmdCheck, readChecks, hv, h255, hfr, if_false, Bool.false_eq_true, apiCheck, hk']
  cases indexGet br s c.u k with
  | none => simp
  | some e =>
    by_cases h : dataCheck s e.offset e.dataid = 0 <;> simp [h]

set_option maxRecDepth 100000 in
/-- CHECK of a payload that cannot be read: the data file was cut after its header.  The command answers -1, the
    call returns true.  With one byte of the payload changed they agree. -/
theorem C44_check_refuted :
    let x := runCmds (fun _ => []) (freshStore .user) [(exCtx, .set, [str "SET", str "a", str "one"])]
    let lost : Store := { x.2.1 with dfiles := x.2.1.dfiles.map (List.take 28) }
    let bad : Store := { x.2.1 with dfiles := x.2.1.dfiles.map (fun f => f.set 48 0) }
    apiCheck exCtx x.1 x.2.1 (str "a") = .yes ∧ cmdCheck exCtx x.1 x.2.1 [str "CHECK", str "a"] = .int 1 ∧
    apiCheck exCtx x.1 lost (str "a") = .yes ∧ cmdCheck exCtx x.1 lost [str "CHECK", str "a"] = .int (-1) ∧
    apiCheck exCtx x.1 bad (str "a") = .no ∧ cmdCheck exCtx x.1 bad [str "CHECK", str "a"] = .int 0 := by
  refine ⟨?_, ?_, ?_, ?_, ?_, ?_⟩ <;> rfl

/-- In mixed mode the handler is taken outside of its array. -/
theorem C44_mixed_refuted : (apiSet none exCtx (fun _ => []) (freshStore .user) (str "a") (str "one")).2.2 = .crash := rfl

set_option maxRecDepth 100000 in
/-- (Sequential mode, outside of C44.) The call does not record the data file: after a jump the payload cannot be read. -/
theorem api_seq_dataid_refuted :
    let x := runCmds (fun _ => []) (freshStore .seq) [(exCtx, .set, [str "SET", [], str "one"]), (exCtx, .nsjump, [str "NSJUMP"])]
    let y := apiSet (some .seq) exCtx x.1 x.2.1 [] (str "three")
    y.2.2 = .buffer [1, 0, 0, 0, 0, 0, 0, 0] ∧
    apiGet exCtx y.1 y.2.1 [1, 0, 0, 0, 0, 0, 0, 0] ≠ .entry [1, 0, 0, 0, 0, 0, 0, 0] (str "three") := by
  refine ⟨?_, ?_⟩
  · rfl
  · decide +kernel

end Zdb
