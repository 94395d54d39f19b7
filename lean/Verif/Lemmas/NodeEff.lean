/-
What a handler can do to the node and to its client.
-/
import Verif.Lemmas.NodeBase
namespace Zdb

/-- Handlers that change namespaces when they answer OK. -/
def Handler.acts : Handler → Bool
  | .nsnew | .nsdel | .nsset | .reload | .flush => true
  | _ => false

/-- The effects of handlers on namespaces, files and the list of clients. -/
inductive NodeEff (S : Settings) (e : Env) (n : Node) (c : Client) (r : NsRec) (argv : List Bytes) :
    Handler → Node → Option Msg → Prop where
  | same (h : Handler) (m : Option Msg) (hd : ∀ d, h ≠ .ds d)
      (hq : h.acts = true → ∃ s, m = errMsg s) : NodeEff S e n c r argv h n m
  | ds (d : DsCmd) (br : Branches) (s : Store) (rep : Reply)
      (hd : dsCommand (ctxOf S e c r) n.br r.store d argv = (br, s, rep)) (hc : rep ≠ .crash) :
      NodeEff S e n c r argv (.ds d)
        (nsUpdate { n with br := br } r.uid (fun r => { r with store := s })) (some (.reply rep))
  | nsnew (name : Bytes) (br : Branches) (s : Store) (ha : c.admin = true) (hl : argv.length = 2)
      (hn : nsArg argv = .ok name) (hv : validName name = true) (hf : nsGet n name = none) (h0 : name ≠ [])
      (hk : name ≠ nameLockfile)
      (hs : freshNs S.cfg n.br e.uid = .ok br s) :
      NodeEff S e n c r argv .nsnew
        { n with br := br, effective := n.effective + 1
                 slots := pushSlot { uid := e.uid, conf := defaultConf name, store := s, desc := encDesc (defaultConf name) } n.slots }
        (some (.reply .ok))
  | nsdel (name : Bytes) (x : NsRec) (ha : c.admin = true) (hl : argv.length = 2) (hn : nsArg argv = .ok name)
      (hd : name ≠ nameDefault) (hx : nsGet n name = some x) (hc : c.ns ≠ some x.uid) :
      NodeEff S e n c r argv .nsdel
        { n with br := cleanNs n.br x, slots := kickSlot x.uid n.slots, effective := n.effective - 1
                 clients := detach x.uid n.clients } (some (.reply .ok))
  | nsset (a b prop value : Bytes) (target : Bytes) (x y : NsRec) (ha : c.admin = true)
      (hargs : argv = [a, b, prop, value]) (hv : value.length ≤ 63)
      (hn : nsArg argv = .ok target) (hx : nsGet n target = some x)
      (hp : nsProperty S x target (cstr prop) (cstr value) = .ok y) :
      NodeEff S e n c r argv .nsset (nsUpdate n x.uid (fun _ => commitNs y)) (some (.reply .ok))
  | reload (name : Bytes) (x : NsRec) (br : Branches) (s : Store) (ha : c.admin = true) (hl : argv.length = 2)
      (hn : nsArg argv = .ok name) (hx : nsGet n name = some x)
      (hr : reloadNs S.cfg n.br x.uid x.store = .ok br s) :
      NodeEff S e n c r argv .reload
        (nsUpdate { n with br := br } x.uid (fun r => { r with store := s })) (some (.reply .ok))
  | flush (br : Branches) (s : Store) (hp : r.conf.isPublic = false) (hw : r.conf.password.isSome = true)
      (hr : reloadNs S.cfg n.br r.uid r.store = .ok br s) :
      NodeEff S e n c r argv .flush
        (nsUpdate { n with br := br } r.uid (fun r => { r with store := s })) (some (.reply .ok))

theorem say_inj {n n' : Node} {c c' : Client} {m m' : Option Msg} {st : Status}
    (h : say n c m = .done n' c' m' st) : n' = n ∧ c' = c ∧ m' = m ∧ st = .keep := by
  unfold say at h
  injection h with h1 h2 h3 h4
  exact ⟨h1.symm, h2.symm, h3.symm, h4.symm⟩

theorem argsValidate_len {argv : List Bytes} {k : Nat} (h : argsValidate argv k = none) : argv.length = k := by
  unfold argsValidate at h
  split at h
  · exact absurd h (by simp)
  · rename_i hh; simpa using hh

theorem argsValidate_err {argv : List Bytes} {k : Nat} {x : Reply} (h : argsValidate argv k = some x) : ∃ s, x = .err s := by
  unfold argsValidate at h
  split at h
  · injection h with h; exact ⟨_, h.symm⟩
  · split at h
    · injection h with h; exact ⟨_, h.symm⟩
    · exact absurd h (by simp)

theorem cmdWait_node {e : Env} {n n' : Node} {c c' : Client} {argv : List Bytes} {m : Option Msg} {st : Status}
    (h : cmdWait e n c argv = .done n' c' m st) : n' = n ∧ st = .keep := by
  unfold cmdWait at h
  simp only at h
  have hsay : ∀ c m, say n c m = .done n' c' m st → n' = n ∧ st = .keep := fun c m h => by
    obtain ⟨a, -, -, b⟩ := say_inj h; exact ⟨a, b⟩
  unfold sayErr at h
  repeat' split at h
  all_goals (obtain ⟨a, -, -, b⟩ := say_inj h; exact ⟨a, b⟩)

theorem cmdAuth_node {S : Settings} {e : Env} {n n' : Node} {c c' : Client} {argv : List Bytes} {m : Option Msg}
    {st : Status} (h : cmdAuth S e n c argv = .done n' c' m st) : n' = n ∧ st = .keep := by
  unfold cmdAuth cmdAuthRegular cmdAuthSecure sayErr sayOk at h
  repeat' split at h
  all_goals (obtain ⟨a, -, -, b⟩ := say_inj h; exact ⟨a, b⟩)

theorem cmdSelect_node {S : Settings} {n n' : Node} {c c' : Client} {argv : List Bytes} {m : Option Msg}
    {st : Status} (h : cmdSelect S n c argv = .done n' c' m st) : n' = n ∧ st = .keep := by
  unfold cmdSelect sayErr sayOk at h
  repeat' split at h
  all_goals (obtain ⟨a, -, -, b⟩ := say_inj h; exact ⟨a, b⟩)

theorem cmdNsinfo_node {n n' : Node} {c c' : Client} {argv : List Bytes} {m : Option Msg}
    {st : Status} (h : cmdNsinfo n c argv = .done n' c' m st) : n' = n ∧ c' = c ∧ st = .keep := by
  unfold cmdNsinfo sayErr at h
  repeat' split at h
  all_goals (obtain ⟨a, b, -, d⟩ := say_inj h; exact ⟨a, b, d⟩)

/-- The node after a handler. -/
theorem runHandler_eff {S : Settings} {e : Env} {n n' : Node} {c c' : Client} {r : NsRec} {h : Handler}
    {argv : List Bytes} {m : Option Msg} {st : Status} (hr : runHandler S e n c r h argv = .done n' c' m st) :
    NodeEff S e n c r argv h n' m := by
  have same : ∀ h : Handler, (∀ d, h ≠ .ds d) → (h.acts = false) → n' = n → NodeEff S e n c r argv h n' m := by
    rintro h hd ha rfl; exact .same _ _ hd (by simp [ha])
  have quiet : ∀ h : Handler, (∀ d, h ≠ .ds d) → ∀ x : Reply, (∃ s, x = .err s) → say n c (some (.reply x)) = .done n' c' m st →
      NodeEff S e n c r argv h n' m := by
    rintro h hd x ⟨s, rfl⟩ hs
    obtain ⟨rfl, -, rfl, -⟩ := say_inj hs
    exact .same _ _ hd (fun _ => ⟨s, rfl⟩)
  cases h with
  | asterisk => exact same _ (by simp) rfl (say_inj hr).1
  | wait => exact same _ (by simp) rfl (cmdWait_node hr).1
  | mirror =>
    simp only [runHandler] at hr
    split at hr <;> exact same _ (by simp) rfl (say_inj hr).1
  | master =>
    simp only [runHandler] at hr
    split at hr <;> exact same _ (by simp) rfl (say_inj hr).1
  | ping => exact same _ (by simp) rfl (say_inj hr).1
  | time => exact same _ (by simp) rfl (say_inj hr).1
  | auth => exact same _ (by simp) rfl (cmdAuth_node hr).1
  | hooks =>
    simp only [runHandler] at hr
    split at hr <;> exact same _ (by simp) rfl (say_inj hr).1
  | info => exact same _ (by simp) rfl (say_inj hr).1
  | stop =>
    simp only [runHandler] at hr
    injection hr with h1 _ _ _
    exact same _ (by simp) rfl h1.symm
  | nslist => exact same _ (by simp) rfl (say_inj hr).1
  | nsinfo => exact same _ (by simp) rfl (cmdNsinfo_node hr).1
  | select => exact same _ (by simp) rfl (cmdSelect_node hr).1
  | ds d =>
    simp only [runHandler, cmdDs] at hr
    by_cases ho : ((lookedUp (ctxOf S e c r) d argv).any (seqOverrun r.store)) = true
    · rw [if_pos ho] at hr; exact absurd hr (by simp)
    rw [if_neg ho] at hr
    cases hd : dsCommand (ctxOf S e c r) n.br r.store d argv with
    | mk br t =>
      obtain ⟨s, rep⟩ := t
      rw [hd] at hr
      by_cases hc : rep = .crash
      · subst hc; exact absurd hr (by simp)
      · have : say (nsUpdate { n with br := br } r.uid (fun r => { r with store := s })) c (some (.reply rep)) =
            .done n' c' m st := by
          cases rep <;> first | exact hr | exact absurd rfl hc
        obtain ⟨h1, -, h3, -⟩ := say_inj this
        subst h1; subst h3
        exact .ds d br s rep hd hc
  | nsnew =>
    simp only [runHandler, cmdNsnew, sayErr, sayOk] at hr
    by_cases ha : c.admin = true
    · simp only [ha, Bool.not_true, Bool.false_eq_true, if_false] at hr
      cases hv : argsValidate argv 2 with
      | some x => rw [hv] at hr; exact quiet _ (by simp) _ (argsValidate_err hv) hr
      | none =>
        rw [hv] at hr
        simp only at hr
        cases hn : nsArg argv with
        | error s => rw [hn] at hr; exact quiet _ (by simp) _ ⟨_, rfl⟩ hr
        | ok name =>
          rw [hn] at hr
          simp only at hr
          by_cases h1 : validName name = true
          · simp only [h1, Bool.not_true, Bool.false_eq_true, if_false] at hr
            cases h2 : nsGet n name with
            | some x => rw [h2] at hr; exact quiet _ (by simp) _ ⟨_, rfl⟩ hr
            | none =>
              rw [h2] at hr
              simp only [Option.isSome_none, Bool.false_eq_true, if_false] at hr
              by_cases h3 : name = nameLockfile
              · rw [if_pos (by simp [h3])] at hr; exact quiet _ (by simp) _ ⟨_, rfl⟩ hr
              · rw [if_neg (by simp [h3])] at hr
                by_cases h4 : name = []
                · rw [if_pos (by simp [h4])] at hr; exact absurd hr (by simp)
                · rw [if_neg (by simp [h4])] at hr
                  cases h5 : freshNs S.cfg n.br e.uid with
                  | ok br s =>
                    rw [h5] at hr
                    obtain ⟨g1, -, g3, -⟩ := say_inj hr
                    subst g1; subst g3
                    exact .nsnew name br s ha (argsValidate_len hv) hn h1 h2 h4 h3 h5
                  | exit => rw [h5] at hr; exact absurd hr (by simp)
                  | ub => rw [h5] at hr; exact absurd hr (by simp)
          · simp only [h1, Bool.not_false, if_true] at hr; exact quiet _ (by simp) _ ⟨_, rfl⟩ hr
    · simp only [ha, Bool.not_false, if_true] at hr; exact quiet _ (by simp) _ ⟨_, rfl⟩ hr
  | nsdel =>
    simp only [runHandler, cmdNsdel, sayErr, sayOk] at hr
    by_cases ha : c.admin = true
    · simp only [ha, Bool.not_true, Bool.false_eq_true, if_false] at hr
      cases hv : argsValidate argv 2 with
      | some x => rw [hv] at hr; exact quiet _ (by simp) _ (argsValidate_err hv) hr
      | none =>
        rw [hv] at hr
        simp only at hr
        cases hn : nsArg argv with
        | error s => rw [hn] at hr; exact quiet _ (by simp) _ ⟨_, rfl⟩ hr
        | ok name =>
          rw [hn] at hr
          simp only at hr
          by_cases h1 : name = nameDefault
          · rw [if_pos (by simp [h1])] at hr; exact quiet _ (by simp) _ ⟨_, rfl⟩ hr
          · rw [if_neg (by simp [h1])] at hr
            cases h2 : nsGet n name with
            | none => rw [h2] at hr; exact quiet _ (by simp) _ ⟨_, rfl⟩ hr
            | some x =>
              rw [h2] at hr
              simp only at hr
              by_cases h3 : c.ns = some x.uid
              · rw [if_pos h3] at hr; exact quiet _ (by simp) _ ⟨_, rfl⟩ hr
              · rw [if_neg h3] at hr
                obtain ⟨g1, -, g3, -⟩ := say_inj hr
                subst g1; subst g3
                exact .nsdel name x ha (argsValidate_len hv) hn h1 h2 h3
    · simp only [ha, Bool.not_false, if_true] at hr; exact quiet _ (by simp) _ ⟨_, rfl⟩ hr
  | nsset =>
    simp only [runHandler, cmdNsset, sayErr, sayOk] at hr
    by_cases ha : c.admin = true
    · simp only [ha, Bool.not_true, Bool.false_eq_true, if_false] at hr
      cases hv : argsValidate argv 4 with
      | some x => rw [hv] at hr; exact quiet _ (by simp) _ (argsValidate_err hv) hr
      | none =>
        rw [hv] at hr
        simp only at hr
        cases hn : nsArg argv with
        | error s => rw [hn] at hr; exact quiet _ (by simp) _ ⟨_, rfl⟩ hr
        | ok target =>
          rw [hn] at hr
          simp only at hr
          have hlen := argsValidate_len hv
          match argv, hlen with
          | [a, b, prop, value], _ =>
            simp only at hr
            by_cases h1 : prop.length > 256
            · rw [if_pos h1] at hr; exact quiet _ (by simp) _ ⟨_, rfl⟩ hr
            · rw [if_neg h1] at hr
              by_cases h2 : value.length > 63
              · rw [if_pos h2] at hr; exact quiet _ (by simp) _ ⟨_, rfl⟩ hr
              · rw [if_neg h2] at hr
                by_cases h3 : (cstr prop).length = 256
                · rw [if_pos h3] at hr; exact absurd hr (by simp)
                · rw [if_neg h3] at hr
                  cases h4 : nsGet n target with
                  | none => rw [h4] at hr; exact quiet _ (by simp) _ ⟨_, rfl⟩ hr
                  | some x =>
                    rw [h4] at hr
                    simp only at hr
                    cases h5 : nsProperty S x target (cstr prop) (cstr value) with
                    | error s => rw [h5] at hr; exact quiet _ (by simp) _ ⟨_, rfl⟩ hr
                    | ok y =>
                      rw [h5] at hr
                      obtain ⟨g1, -, g3, -⟩ := say_inj hr
                      subst g1; subst g3
                      exact .nsset a b prop value target x y ha rfl (by omega) hn h4 h5
    · simp only [ha, Bool.not_false, if_true] at hr; exact quiet _ (by simp) _ ⟨_, rfl⟩ hr
  | reload =>
    simp only [runHandler, cmdReload, sayErr] at hr
    by_cases ha : c.admin = true
    · simp only [ha, Bool.not_true, Bool.false_eq_true, if_false] at hr
      cases hv : argsValidate argv 2 with
      | some x => rw [hv] at hr; exact quiet _ (by simp) _ (argsValidate_err hv) hr
      | none =>
        rw [hv] at hr
        simp only at hr
        cases hn : nsArg argv with
        | error s => rw [hn] at hr; exact quiet _ (by simp) _ ⟨_, rfl⟩ hr
        | ok name =>
          rw [hn] at hr
          simp only at hr
          cases h2 : nsGet n name with
          | none => rw [h2] at hr; exact quiet _ (by simp) _ ⟨_, rfl⟩ hr
          | some x =>
            rw [h2] at hr
            simp only [reloadRec, sayOk] at hr
            cases h3 : reloadNs S.cfg n.br x.uid x.store with
            | ok br s =>
              rw [h3] at hr
              obtain ⟨g1, -, g3, -⟩ := say_inj hr
              subst g1; subst g3
              exact .reload name x br s ha (argsValidate_len hv) hn h2 h3
            | exit => rw [h3] at hr; exact absurd hr (by simp)
            | ub => rw [h3] at hr; exact absurd hr (by simp)
    · simp only [ha, Bool.not_false, if_true] at hr; exact quiet _ (by simp) _ ⟨_, rfl⟩ hr
  | flush =>
    simp only [runHandler, cmdFlush, sayErr] at hr
    by_cases h1 : (r.conf.isPublic || r.conf.password.isNone) = true
    · rw [if_pos h1] at hr; exact quiet _ (by simp) _ ⟨_, rfl⟩ hr
    · rw [if_neg h1] at hr
      by_cases h2 : (hasInfix wordZdbIndex r.conf.name || hasInfix wordZdbData r.conf.name) = true
      · rw [if_pos h2] at hr; exact absurd hr (by simp)
      · rw [if_neg h2] at hr
        simp only [reloadRec, sayOk] at hr
        simp only [Bool.or_eq_true, not_or, Bool.not_eq_true, Option.isNone_eq_false_iff] at h1
        cases h3 : reloadNs S.cfg n.br r.uid r.store with
        | ok br s =>
          rw [h3] at hr
          obtain ⟨g1, -, g3, -⟩ := say_inj hr
          subst g1; subst g3
          exact .flush br s h1.1 h1.2 h3
        | exit => rw [h3] at hr; exact absurd hr (by simp)
        | ub => rw [h3] at hr; exact absurd hr (by simp)

/-- The client after a handler. -/
inductive ClientEff (S : Settings) (e : Env) (n : Node) (c : Client) (argv : List Bytes) : Handler → Client → Option Msg → Prop where
  | same (h : Handler) (m : Option Msg) : ClientEff S e n c argv h c m
  | wait (w : Watch) (m : Option Msg) : ClientEff S e n c argv .wait { c with watching := some w } m
  | mirror (m : Option Msg) (ha : c.admin = true) : ClientEff S e n c argv .mirror { c with mirror := true } m
  | master (m : Option Msg) (ha : c.admin = true) : ClientEff S e n c argv .master { c with master := true } m
  | auth (a p pwd : Bytes) (hargs : argv = [a, p]) (hp : S.adminpwd = some pwd) (hc : cstr p = pwd) :
      ClientEff S e n c argv .auth { c with admin := true } (some (.reply .ok))
  | challenge : ClientEff S e n c argv .auth { c with nonce := some e.nonce } (some (.challenge e.nonce))
  | secure (a w h pwd nonce : Bytes) (hargs : argv = [a, w, h]) (hp : S.adminpwd = some pwd) (hn : c.nonce = some nonce)
      (hl : h.length = 40) (hc : cstr h = S.hash nonce pwd) :
      ClientEff S e n c argv .auth { c with admin := true, nonce := none } (some (.reply .ok))
  | refused (a w h pwd nonce : Bytes) (hargs : argv = [a, w, h]) (hp : S.adminpwd = some pwd) (hn : c.nonce = some nonce)
      (hl : h.length = 40) (hc : cstr h ≠ S.hash nonce pwd) :
      ClientEff S e n c argv .auth { c with nonce := none } (errMsg "Access denied")
  | select (name : Bytes) (r : NsRec) (w : Bool) (hn : nsArg argv = .ok name) (hr : nsGet n name = some r)
      (hw : accessOf S c r.conf argv = .ok w) :
      ClientEff S e n c argv .select { c with ns := some r.uid, writable := w } (some (.reply .ok))

theorem cmdAuth_client {S : Settings} {e : Env} {n n' : Node} {c c' : Client} {argv : List Bytes} {m : Option Msg}
    {st : Status} (h : cmdAuth S e n c argv = .done n' c' m st) : ClientEff S e n c argv .auth c' m := by
  have same : c' = c → ClientEff S e n c argv .auth c' m := by rintro rfl; exact .same _ _
  unfold cmdAuth at h
  by_cases h2 : argv.length = 2
  · rw [if_pos h2] at h
    unfold cmdAuthRegular sayErr sayOk at h
    match argv, h2 with
    | [a, p], _ =>
      cases hp : S.adminpwd with
      | none => rw [hp] at h; exact same (say_inj h).2.1
      | some pwd =>
        rw [hp] at h
        simp only at h
        cases hv : argsValidate [a, p] 2 with
        | some x => rw [hv] at h; exact same (say_inj h).2.1
        | none =>
          rw [hv] at h
          simp only at h
          by_cases h3 : p.length > 128
          · rw [if_pos h3] at h; exact same (say_inj h).2.1
          · rw [if_neg h3] at h
            by_cases h4 : passwordCheck p pwd = true
            · rw [if_pos h4] at h
              obtain ⟨-, rfl, rfl, -⟩ := say_inj h
              exact .auth a p pwd rfl hp (by simpa [passwordCheck] using h4)
            · rw [if_neg h4] at h; exact same (say_inj h).2.1
  · rw [if_neg h2] at h
    by_cases h3 : argv.length = 3
    · rw [if_pos h3] at h
      unfold cmdAuthSecure sayErr sayOk at h
      match argv, h3 with
      | [a, w, x], _ =>
        cases hv : argsValidate [a, w, x] 3 with
        | some y => rw [hv] at h; exact same (say_inj h).2.1
        | none =>
          rw [hv] at h
          simp only at h
          by_cases h4 : strnCaseEq w wordSecure = true
          · simp only [h4, Bool.not_true, Bool.false_eq_true, if_false] at h
            by_cases h5 : strnCaseEq x wordChallenge = true
            · rw [if_pos h5] at h
              obtain ⟨-, rfl, rfl, -⟩ := say_inj h
              exact .challenge
            · rw [if_neg h5] at h
              cases hp : S.adminpwd with
              | none => rw [hp] at h; exact same (say_inj h).2.1
              | some pwd =>
                rw [hp] at h
                simp only at h
                cases hn : c.nonce with
                | none => rw [hn] at h; exact same (say_inj h).2.1
                | some nonce =>
                  rw [hn] at h
                  simp only at h
                  by_cases h6 : x.length ≠ 40
                  · rw [if_pos h6] at h; exact same (say_inj h).2.1
                  · rw [if_neg h6] at h
                    have h6 : x.length = 40 := Classical.not_not.1 h6
                    by_cases h7 : passwordCheck x (S.hash nonce pwd) = true
                    · rw [if_pos h7] at h
                      obtain ⟨-, rfl, rfl, -⟩ := say_inj h
                      exact .secure a w x pwd nonce rfl hp hn h6 (by simpa [passwordCheck] using h7)
                    · rw [if_neg h7] at h
                      obtain ⟨-, rfl, rfl, -⟩ := say_inj h
                      exact .refused a w x pwd nonce rfl hp hn h6 (by simpa [passwordCheck] using h7)
          · simp only [h4, Bool.not_false, if_true] at h; exact same (say_inj h).2.1
    · rw [if_neg h3] at h; exact same (say_inj h).2.1

theorem runHandler_client {S : Settings} {e : Env} {n n' : Node} {c c' : Client} {r : NsRec} {h : Handler}
    {argv : List Bytes} {m : Option Msg} {st : Status} (hr : runHandler S e n c r h argv = .done n' c' m st) :
    ClientEff S e n c argv h c' m := by
  have same : ∀ h : Handler, c' = c → ClientEff S e n c argv h c' m := by
    rintro h rfl; exact .same _ _
  cases h with
  | asterisk => exact same _ (say_inj hr).2.1
  | wait =>
    simp only [runHandler, cmdWait, sayErr] at hr
    repeat' split at hr
    all_goals first
      | exact same _ (say_inj hr).2.1
      | (obtain ⟨-, rfl, -, -⟩ := say_inj hr; exact .wait _ _)
  | mirror =>
    simp only [runHandler] at hr
    split at hr
    · rename_i ha; obtain ⟨-, rfl, -, -⟩ := say_inj hr; exact .mirror _ ha
    · exact same _ (say_inj hr).2.1
  | master =>
    simp only [runHandler] at hr
    split at hr
    · rename_i ha; obtain ⟨-, rfl, -, -⟩ := say_inj hr; exact .master _ ha
    · exact same _ (say_inj hr).2.1
  | ping => exact same _ (say_inj hr).2.1
  | time => exact same _ (say_inj hr).2.1
  | auth => exact cmdAuth_client hr
  | hooks =>
    simp only [runHandler] at hr
    split at hr <;> exact same _ (say_inj hr).2.1
  | info => exact same _ (say_inj hr).2.1
  | stop =>
    simp only [runHandler] at hr
    injection hr with _ h1 _ _
    exact same _ h1.symm
  | nslist => exact same _ (say_inj hr).2.1
  | nsinfo => exact same _ (cmdNsinfo_node hr).2.1
  | select =>
    simp only [runHandler, cmdSelect, sayErr, sayOk] at hr
    cases hn : nsArg argv with
    | error s => rw [hn] at hr; exact same _ (say_inj hr).2.1
    | ok name =>
      rw [hn] at hr
      simp only at hr
      cases hx : nsGet n name with
      | none => rw [hx] at hr; exact same _ (say_inj hr).2.1
      | some x =>
        rw [hx] at hr
        simp only at hr
        cases hw : accessOf S c x.conf argv with
        | error s => rw [hw] at hr; exact same _ (say_inj hr).2.1
        | ok w =>
          rw [hw] at hr
          obtain ⟨-, rfl, rfl, -⟩ := say_inj hr
          exact .select name x w hn hx hw
  | ds d =>
    simp only [runHandler, cmdDs] at hr
    split at hr
    · exact absurd hr (by simp)
    · split at hr
      · exact absurd hr (by simp)
      · exact same _ (say_inj hr).2.1
  | nsnew =>
    simp only [runHandler, cmdNsnew, sayErr, sayOk] at hr
    repeat' split at hr
    all_goals first
      | exact same _ (say_inj hr).2.1
      | exact absurd hr (by simp)
  | nsdel =>
    simp only [runHandler, cmdNsdel, sayErr, sayOk] at hr
    repeat' split at hr
    all_goals first
      | exact same _ (say_inj hr).2.1
      | exact absurd hr (by simp)
  | nsset =>
    simp only [runHandler, cmdNsset, sayErr, sayOk] at hr
    repeat' split at hr
    all_goals first
      | exact same _ (say_inj hr).2.1
      | exact absurd hr (by simp)
  | reload =>
    simp only [runHandler, cmdReload, reloadRec, sayErr, sayOk] at hr
    repeat' split at hr
    all_goals first
      | exact same _ (say_inj hr).2.1
      | exact absurd hr (by simp)
  | flush =>
    simp only [runHandler, cmdFlush, reloadRec, sayErr, sayOk] at hr
    repeat' split at hr
    all_goals first
      | exact same _ (say_inj hr).2.1
      | exact absurd hr (by simp)

/-- Only STOP ends the process, and handlers never ask for the client to be disconnected. -/
theorem runHandler_status {S : Settings} {e : Env} {n n' : Node} {c c' : Client} {r : NsRec} {h : Handler}
    {argv : List Bytes} {m : Option Msg} {st : Status} (hr : runHandler S e n c r h argv = .done n' c' m st) :
    st = .keep ∨ (st = .shutdown ∧ h = .stop) := by
  cases h with
  | stop =>
    simp only [runHandler] at hr
    injection hr with _ _ _ h1
    exact Or.inr ⟨h1.symm, rfl⟩
  | wait => exact Or.inl (cmdWait_node hr).2
  | auth => exact Or.inl (cmdAuth_node hr).2
  | select => exact Or.inl (cmdSelect_node hr).2
  | _ =>
    left
    simp only [runHandler, cmdNsinfo, cmdDs, cmdNsnew, cmdNsdel, cmdNsset, cmdReload, cmdFlush, cmdNslist, reloadRec,
      sayErr, sayOk] at hr
    repeat' split at hr
    all_goals first
      | exact (say_inj hr).2.2.2
      | exact absurd hr (by simp)

end Zdb
