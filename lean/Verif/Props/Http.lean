import Verif.Model.Http
/-!
# C50, C51: credentials, routes and statuses
-/
namespace Rothko

/-- The request has a name or a password that differs from the configured one and has the same hash. -/
def Collides (hash : Bytes → Bytes) (s : HServer) (req : HReq) : Prop :=
  ∃ u p, req.auth = some (u, p) ∧ ((u ≠ s.username ∧ hash u = hash s.username) ∨ (p ≠ s.password ∧ hash p = hash s.password))

theorem validAuth_iff (hash : Bytes → Bytes) (s : HServer) (u p : Bytes) : validAuth hash s u p = true ↔ hash u = hash s.username ∧ hash p = hash s.password := by
  unfold validAuth
  by_cases h1 : hash u = hash s.username <;> by_cases h2 : hash p = hash s.password <;> simp [h1, h2]

/-- **C50** (refused). With a username configured, a request without exactly those credentials gets a 401 with a challenge, and nothing behind the server is used: unless the request has found a collision of the hash with the configured ones. -/
theorem C50_refused (hash : Bytes → Bytes) (msg : HErr → Bytes) (s : HServer) (req : HReq) (hu : s.username ≠ []) (ha : req.auth ≠ some (s.username, s.password)) (hc : ¬ Collides hash s req) :
    (serve hash msg s req).touched = [] ∧ (serve hash msg s req).status = 401 ∧ ("WWW-Authenticate", "Basic realm=\"rothko\"") ∈ (serve hash msg s req).headers ∧
    (serve hash msg s req).body = msg .unauthorized := by
  have hrun : serveHTTP hash s req = { acts := [.setHeader "WWW-Authenticate" "Basic realm=\"rothko\""], err := some .unauthorized } := by
    unfold serveHTTP
    cases hr : req.auth with
    | none => simp [hu]
    | some x =>
      obtain ⟨u, p⟩ := x
      have : validAuth hash s u p = false := by
        rw [Bool.eq_false_iff]
        intro hv
        obtain ⟨h1, h2⟩ := (validAuth_iff hash s u p).mp hv
        have e1 : u = s.username := Classical.byContradiction (fun hn => hc ⟨u, p, hr, .inl ⟨hn, h1⟩⟩)
        have e2 : p = s.password := Classical.byContradiction (fun hn => hc ⟨u, p, hr, .inr ⟨hn, h2⟩⟩)
        exact ha (by rw [hr, e1, e2])
      simp [hu, this]
  simp [serve, hrun, Tracker.acts, Tracker.act, Raw.act, Raw.response, getStatusCode]

/-- **C50** (let in). With those credentials the request is handled as if none were needed. -/
theorem C50_accepted (hash : Bytes → Bytes) (msg : HErr → Bytes) (s : HServer) (req : HReq) (ha : req.auth = some (s.username, s.password)) :
    serve hash msg s req = serve hash msg { s with username := [], password := [] } req := by
  have h1 : serveHTTP hash s req = serveHTTP hash { s with username := [], password := [] } req := by
    unfold serveHTTP
    rw [ha]
    have : validAuth hash s s.username s.password = true := (validAuth_iff hash s _ _).mpr ⟨rfl, rfl⟩
    simp [this, route]
  unfold serve
  rw [h1]

/-- With only a password configured, nothing is checked. -/
theorem C50_password_only_refuted :
    ¬ ∀ (hash : Bytes → Bytes) (msg : HErr → Bytes) (s : HServer) (req : HReq), ¬ Collides hash s req → (s.username ≠ [] ∨ s.password ≠ []) → req.auth ≠ some (s.username, s.password) →
      (serve hash msg s req).touched = [] := by
  intro h
  have := h id (fun _ => []) { origin := "", username := [], password := [1], nonce := [], static := some (fun _ => []), render := fun _ => ([], none), query := fun _ => ([], none) }
    { method := "GET", path := "/", auth := none, form := fun _ => [] } (by rintro ⟨a, b, h1, _⟩; cases h1) (by simp) (by simp)
  revert this
  simp [serve, serveHTTP, route]

/-! ## C51 -/

/-- What the handlers do is let through: from here the request has passed the check of credentials. -/
def Passed (hash : Bytes → Bytes) (s : HServer) (req : HReq) : Prop :=
  s.username = [] ∨ ∃ u p, req.auth = some (u, p) ∧ validAuth hash s u p = true

theorem serveHTTP_passed {hash : Bytes → Bytes} {s : HServer} {req : HReq} (h : Passed hash s req) :
    serveHTTP hash s req = if req.method ≠ "GET" then { err := some .methodNotAllowed } else route s req := by
  unfold serveHTTP
  rcases h with h | ⟨u, p, ha, hv⟩
  · simp [h]
  · rw [ha]; simp [hv]

/-- **C51** (methods). Anything but GET is a 405, and uses nothing. -/
theorem C51_method (hash : Bytes → Bytes) (msg : HErr → Bytes) (s : HServer) (req : HReq) (h : Passed hash s req) (hm : req.method ≠ "GET") :
    (serve hash msg s req).status = 405 ∧ (serve hash msg s req).touched = [] := by
  simp [serve, serveHTTP_passed h, hm, Tracker.acts, Raw.act, Raw.response, getStatusCode]

/-- **C51** (missing metric). A render without a metric is a 400, and uses nothing. -/
theorem C51_no_metric (hash : Bytes → Bytes) (msg : HErr → Bytes) (s : HServer) (req : HReq) (h : Passed hash s req) (hm : req.method = "GET") (hp : req.path = "/api/render") (hf : req.form "metric" = []) :
    (serve hash msg s req).status = 400 ∧ (serve hash msg s req).touched = [] := by
  simp [serve, serveHTTP_passed h, hm, hp, hf, route, Tracker.acts, Raw.act, Raw.response, getStatusCode]

/-- The paths the server handles itself. -/
def apiPaths : List String := ["/api/render", "/api/query", "/api/nonce"]

/-- **C51** (not found). Another path without static content is a 404. -/
theorem C51_not_found (hash : Bytes → Bytes) (msg : HErr → Bytes) (s : HServer) (req : HReq) (h : Passed hash s req) (hm : req.method = "GET") (hp : req.path ∉ apiPaths) (hs : s.static = none) :
    (serve hash msg s req).status = 404 ∧ (serve hash msg s req).touched = [] := by
  simp only [apiPaths, List.mem_cons, List.not_mem_nil, or_false, not_or] at hp
  simp [serve, serveHTTP_passed h, hm, hp, hs, route, Tracker.acts, Raw.act, Raw.response, getStatusCode]

/-- What is sent when the actions are done on net/http's writer, with the origin header set before. -/
def direct (s : HServer) (l : List HAct) : Nat × List (String × String) × Bytes :=
  (l.foldl Raw.act (({} : Raw).act (.setHeader "Access-Control-Allow-Origin" (if s.origin = "" then "*" else s.origin)))).response

theorem acts_raw (l : List HAct) (t : Tracker) : (t.acts l).raw = l.foldl Raw.act t.raw := by
  induction l generalizing t with
  | nil => rfl
  | cons a l ih =>
    show ((t.act a).acts l).raw = _
    rw [ih]
    cases a <;> rfl

/-- The tracker saw a write iff something was sent, and then has the status that was sent. -/
def TrackOk (t : Tracker) : Prop := (t.wrote = false ∧ t.raw.sent = none ∧ t.code = 0) ∨ (t.wrote = true ∧ ∃ h, t.raw.sent = some (t.code, h))

theorem trackOk_acts (l : List HAct) (t : Tracker) (h : TrackOk t) : TrackOk (t.acts l) := by
  induction l generalizing t with
  | nil => exact h
  | cons a l ih =>
    refine ih _ ?_
    rcases h with ⟨h1, h2, h3⟩ | ⟨h1, hd, h2⟩
    · cases a with
      | setHeader k v => left; simp [Tracker.act, Raw.act, h1, h2, h3]
      | writeHeader c => right; simp [Tracker.act, Raw.act, h1, h2]
      | write b => right; simp [Tracker.act, Raw.act, h1, h2]
    · cases a with
      | setHeader k v => right; simp [Tracker.act, Raw.act, h1, h2]
      | writeHeader c => right; simp [Tracker.act, Raw.act, h1, h2]
      | write b => right; simp [Tracker.act, Raw.act, h1, h2]

/-- **C51** (static). Another path with static content is what the static handler sends. -/
theorem C51_static (hash : Bytes → Bytes) (msg : HErr → Bytes) (s : HServer) (req : HReq) (st : HReq → List HAct) (h : Passed hash s req) (hm : req.method = "GET") (hp : req.path ∉ apiPaths) (hs : s.static = some st) :
    (serve hash msg s req).touched = [.static] ∧ ((serve hash msg s req).status, (serve hash msg s req).headers, (serve hash msg s req).body) = direct s (st req) := by
  simp only [apiPaths, List.mem_cons, List.not_mem_nil, or_false, not_or] at hp
  have e : serveHTTP hash s req = { touched := [.static], acts := st req } := by simp [serveHTTP_passed h, hm, hp, hs, route]
  simp only [serve, e]
  refine ⟨trivial, ?_⟩
  rw [acts_raw]
  rfl

/-- The action sends something. -/
def HAct.sends : HAct → Bool
  | .setHeader .. => false
  | _ => true

/-- The first status in the actions: explicit, or 200 for a write. -/
def firstStatus : List HAct → Option Nat
  | [] => none
  | .setHeader .. :: l => firstStatus l
  | .writeHeader c :: _ => some c
  | .write _ :: _ => some 200

theorem acts_code (l : List HAct) (t : Tracker) (h : t.wrote = false) (hc : t.code = 0) :
    ((t.acts l).wrote = (firstStatus l).isSome) ∧ (t.acts l).code = (firstStatus l).getD 0 := by
  have keep : ∀ (l : List HAct) (t : Tracker), t.wrote = true → (t.acts l).wrote = true ∧ (t.acts l).code = t.code := by
    intro l
    induction l with
    | nil => intro t h; exact ⟨h, rfl⟩
    | cons a l ih =>
      intro t h
      have : (t.act a).wrote = true ∧ (t.act a).code = t.code := by cases a <;> simp [Tracker.act, h]
      obtain ⟨h1, h2⟩ := ih (t.act a) this.1
      exact ⟨h1, h2.trans this.2⟩
  induction l generalizing t with
  | nil => exact ⟨h, hc⟩
  | cons a l ih =>
    cases a with
    | setHeader k v => exact ih (t.act (.setHeader k v)) h hc
    | writeHeader c =>
      obtain ⟨h1, h2⟩ := keep l (t.act (.writeHeader c)) rfl
      refine ⟨h1, h2.trans ?_⟩
      simp [Tracker.act, h, firstStatus]
    | write b =>
      obtain ⟨h1, h2⟩ := keep l (t.act (.write b)) rfl
      refine ⟨h1, h2.trans ?_⟩
      simp [Tracker.act, h, firstStatus]

theorem firstStatus_isSome (l : List HAct) (h : ∃ a ∈ l, a.sends = true) : (firstStatus l).isSome = true := by
  induction l with
  | nil => obtain ⟨_, h, _⟩ := h; cases h
  | cons b l ih =>
    cases b with
    | setHeader k v =>
      obtain ⟨a, ha, hs⟩ := h
      rcases List.mem_cons.mp ha with rfl | ha
      · cases hs
      · exact ih ⟨a, ha, hs⟩
    | writeHeader c => rfl
    | write b => rfl

/-- The status for what the handler sent and the error it returned. -/
def statusFor : Option Nat → Option HErr → Nat
  | some c, _ => c
  | none, some e => getStatusCode e
  | none, none => 200

/-- **C51** (handlers). The status sent is the first one the handler sent; if it sent nothing, it is that of the error it returned, or 200. In particular an error after the handler sent something does not change its status. -/
theorem C51_status (hash : Bytes → Bytes) (msg : HErr → Bytes) (s : HServer) (req : HReq) (run : HRun) (h : serveHTTP hash s req = run) :
    (serve hash msg s req).status = statusFor (firstStatus run.acts) run.err := by
  subst h
  generalize hr : serveHTTP hash s req = run
  simp only [serve, hr]
  generalize ht : (({ raw := ({} : Raw).act (.setHeader "Access-Control-Allow-Origin" (if s.origin = "" then "*" else s.origin)) } : Tracker)) = t0
  have h0 : t0.wrote = false ∧ t0.code = 0 ∧ TrackOk t0 := by
    subst ht; exact ⟨rfl, rfl, Or.inl ⟨rfl, rfl, rfl⟩⟩
  obtain ⟨hw, hcode⟩ := acts_code run.acts t0 h0.1 h0.2.1
  have hok := trackOk_acts run.acts t0 h0.2.2
  generalize t0.acts run.acts = t at *
  cases hf : firstStatus run.acts with
  | some c =>
    rw [hf] at hw hcode
    simp at hw hcode
    rcases hok with ⟨h1, _⟩ | ⟨_, hd, h2⟩
    · rw [hw] at h1; cases h1
    · cases run.err with
      | none => simp [statusFor, Raw.response, h2, hcode]
      | some e => simp [statusFor, hw, Raw.response, h2, hcode]
  | none =>
    rw [hf] at hw hcode
    simp at hw hcode
    rcases hok with ⟨_, h2, _⟩ | ⟨h1, _⟩
    · cases run.err with
      | none => simp [statusFor, Raw.response, h2]
      | some e => simp [statusFor, hw, Raw.act, Raw.response, h2]
    · rw [hw] at h1; cases h1

/-- **C51** (unclassified errors). A query or render that fails, for instance in the database, before sending anything is a 500 with the text of the error. -/
theorem C51_failure (hash : Bytes → Bytes) (msg : HErr → Bytes) (s : HServer) (req : HReq) (h : Passed hash s req) (hm : req.method = "GET") (acts : List HAct) (hn : ∀ a ∈ acts, a.sends = false)
    (hh : (req.path = "/api/render" ∧ req.form "metric" ≠ [] ∧ s.render req = (acts, some .other)) ∨ (req.path = "/api/query" ∧ s.query req = (acts, some .other))) :
    (serve hash msg s req).status = 500 ∧ (serve hash msg s req).body = msg .other := by
  have e : (serveHTTP hash s req).acts = acts ∧ (serveHTTP hash s req).err = some .other := by
    rw [serveHTTP_passed h]
    rcases hh with ⟨hp, hf, hr⟩ | ⟨hp, hr⟩
    · simp [hm, route, hp, hf, hr]
    · simp [hm, route, hp, hr]
  obtain ⟨e1, e2⟩ := e
  have fs : firstStatus acts = none := by
    clear hh e1
    induction acts with
    | nil => rfl
    | cons a l ih =>
      cases a with
      | setHeader k v => exact ih (fun b hb => hn b (by simp [hb]))
      | writeHeader c => have := hn _ (List.Mem.head _); cases this
      | write b => have := hn _ (List.Mem.head _); cases this
  constructor
  · rw [C51_status hash msg s req _ rfl, e1, e2, fs]; rfl
  · simp only [serve, e1, e2]
    generalize ht : (({ raw := ({} : Raw).act (.setHeader "Access-Control-Allow-Origin" (if s.origin = "" then "*" else s.origin)) } : Tracker)) = t0
    have h0 : t0.wrote = false ∧ t0.code = 0 ∧ TrackOk t0 ∧ t0.raw.body = [] := by subst ht; exact ⟨rfl, rfl, Or.inl ⟨rfl, rfl, rfl⟩, rfl⟩
    obtain ⟨hw, _⟩ := acts_code acts t0 h0.1 h0.2.1
    rw [fs] at hw
    have hok := trackOk_acts acts t0 h0.2.2.1
    have hb : (t0.acts acts).raw.body = [] := by
      rw [acts_raw]
      have : ∀ (l : List HAct) (w : Raw), (∀ a ∈ l, a.sends = false) → (l.foldl Raw.act w).body = w.body := by
        intro l
        induction l with
        | nil => intro w _; rfl
        | cons a l ih =>
          intro w hn
          rw [List.foldl_cons, ih _ (fun b hb => hn b (by simp [hb]))]
          cases a with
          | setHeader k v => rfl
          | writeHeader c => have := hn _ (List.Mem.head _); cases this
          | write b => have := hn _ (List.Mem.head _); cases this
      rw [this acts _ hn, h0.2.2.2]
    generalize t0.acts acts = t at *
    have hw' : t.wrote = false := by simpa using hw
    rcases hok with ⟨_, h2, _⟩ | ⟨h1, _⟩
    · simp [hw', Raw.act, Raw.response, h2, hb]
    · rw [hw'] at h1; cases h1

/-- **C51** (error bodies). If a handler fails after sending something, what was sent is as if it had not failed: the status and body of the error are not mixed in. -/
theorem C51_no_overwrite (hash : Bytes → Bytes) (msg : HErr → Bytes) (s : HServer) (req : HReq) (run : HRun) (h : serveHTTP hash s req = run) (hf : ∃ a ∈ run.acts, a.sends = true) :
    ((serve hash msg s req).status, (serve hash msg s req).headers, (serve hash msg s req).body) = direct s run.acts := by
  subst h
  generalize hr : serveHTTP hash s req = run at *
  have hfs := firstStatus_isSome _ hf
  simp only [serve, hr]
  generalize ht : (({ raw := ({} : Raw).act (.setHeader "Access-Control-Allow-Origin" (if s.origin = "" then "*" else s.origin)) } : Tracker)) = t0
  have h0 : t0.wrote = false ∧ t0.code = 0 := by subst ht; exact ⟨rfl, rfl⟩
  obtain ⟨hw, _⟩ := acts_code run.acts t0 h0.1 h0.2
  rw [hfs] at hw
  have e : (t0.acts run.acts).raw.response = direct s run.acts := by rw [acts_raw, ← ht]; rfl
  rw [← e]
  cases run.err <;> simp [hw]

/-- **C51** (log), when the handler sent something: the logged status is the one sent. -/
theorem C51_logged_partial (hash : Bytes → Bytes) (msg : HErr → Bytes) (s : HServer) (req : HReq) (hp : req.path ≠ "/api/nonce") (hf : ∃ a ∈ (serveHTTP hash s req).acts, a.sends = true) :
    (serve hash msg s req).logged = some (serve hash msg s req).status := by
  have hfs := firstStatus_isSome _ hf
  rw [C51_status hash msg s req _ rfl]
  simp only [serve, if_neg hp]
  obtain ⟨c, hc⟩ := Option.isSome_iff_exists.mp hfs
  obtain ⟨_, h2⟩ := acts_code (serveHTTP hash s req).acts ({ raw := ({} : Raw).act (.setHeader "Access-Control-Allow-Origin" (if s.origin = "" then "*" else s.origin)) } : Tracker) rfl rfl
  rw [h2, hc]
  rfl

/-- When the server itself sends the status of an error, 0 is logged. -/
theorem C51_logged_refuted :
    ¬ ∀ (hash : Bytes → Bytes) (msg : HErr → Bytes) (s : HServer) (req : HReq), req.path ≠ "/api/nonce" → (serve hash msg s req).logged = some (serve hash msg s req).status := by
  intro h
  have := h id (fun _ => []) { origin := "", username := [], password := [], nonce := [], static := none, render := fun _ => ([], none), query := fun _ => ([], none) }
    { method := "POST", path := "/api/query", auth := none, form := fun _ => [] } (by decide)
  revert this
  decide

/-- A server with credentials: a wrong password is a 401, the right one reaches the database. -/
theorem C50_example :
    let s : HServer := { origin := "", username := [117], password := [112], nonce := [], static := none, render := fun _ => ([], none), query := fun _ => ([.write [91, 93]], none) }
    let req := fun a => ({ method := "GET", path := "/api/query", auth := a, form := fun _ => [] } : HReq)
    (serve id (fun _ => []) s (req (some ([117], [113])))).status = 401 ∧ (serve id (fun _ => []) s (req (some ([117], [112])))).status = 200 ∧
    (serve id (fun _ => []) s (req (some ([117], [112])))).touched = [.metrics] ∧ (serve id (fun _ => []) s (req (some ([117], [112])))).body = [91, 93] ∧
    (serve id (fun _ => []) s (req (some ([117], [112])))).logged = some 200 := by
  decide

end Rothko
