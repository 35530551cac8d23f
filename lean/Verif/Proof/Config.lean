import Verif.Spec.Config

/-!
# Lemmas on the loading of the configuration
-/

namespace Broker

/-! ## Helpers -/

theorem Yaml.get_eq (k : String) (n : Yaml) : n.get k = Spec.nodeAt [k] n := by
  cases n with
  | map es =>
    simp only [Yaml.get, Spec.nodeAt]
    cases es.find? _ <;> rfl
  | _ => rfl

theorem nodeAt_cons (k : String) (p : List String) (n : Yaml) :
    Spec.nodeAt (k :: p) n = (n.get k).bind (Spec.nodeAt p) := by
  cases n with
  | map es =>
    simp only [Yaml.get, Spec.nodeAt]
    cases es.find? _ <;> rfl
  | _ => cases p <;> rfl

/-- What `loadScalar` reads. -/
def textOf : Option Yaml → Option String
  | some (.scalar s) => some s
  | _ => none

theorem scalarAt_one (k : String) (n : Yaml) : Spec.scalarAt [k] n = textOf (n.get k) := by
  unfold Spec.scalarAt
  rw [← Yaml.get_eq]
  rfl

theorem scalarAt_two (k k' : String) (n : Yaml) :
    Spec.scalarAt [k, k'] n =
      match n.get k with
      | some (.map es) => textOf ((Yaml.map es).get k')
      | _ => none := by
  unfold Spec.scalarAt
  rw [nodeAt_cons]
  cases hn : n.get k with
  | none => rfl
  | some m =>
    simp only [Option.bind_some]
    rw [← Yaml.get_eq]
    cases m <;> rfl

/-- The value of an item: its default, or the conversion of the text given. -/
def resolve {α : Type} (o : Option String) (as : String → Option α) (d : α) : Option α :=
  match o with
  | none => some d
  | some s => as s

theorem loadScalar_eq {α : Type} (node : Option Yaml) (as : String → Option α)
    (set : α → BrokerConfig → BrokerConfig) (b : BrokerConfig) :
    loadScalar node as set b =
      match textOf node with
      | none => .ok b
      | some s => match as s with | some v => .ok (set v b) | none => .error ⟨⟩ := by
  unfold loadScalar textOf
  cases node with
  | none => rfl
  | some n => cases n <;> rfl

theorem loadScalar_ok {α : Type} {node : Option Yaml} {as : String → Option α}
    {set : α → BrokerConfig → BrokerConfig} (get : BrokerConfig → α) {b b' : BrokerConfig}
    (hs : set (get b) b = b) :
    loadScalar node as set b = .ok b' ↔
      ∃ v, resolve (textOf node) as (get b) = some v ∧ b' = set v b := by
  rw [loadScalar_eq]
  cases textOf node with
  | none => simp [resolve, hs, eq_comm]
  | some s =>
    simp only [resolve]
    cases as s <;> simp [eq_comm]

theorem bind_ok {ε α β : Type} {x : Except ε α} {f : α → Except ε β} {r : β} :
    (x >>= f) = .ok r ↔ ∃ a, x = .ok a ∧ f a = .ok r := by
  cases x <;> simp [bind, Except.bind]

theorem loadClients_ok {c : Conv} {doc : Yaml} {b b' : BrokerConfig} :
    loadClients c doc b = .ok b' ↔ ∃ v1 v2,
      resolve (Spec.scalarAt ["clients", "address"] doc) some b.clientAddress = some v1 ∧
      resolve (Spec.scalarAt ["clients", "port"] doc) c.u16 b.clientPort = some v2 ∧
      b' = { b with clientAddress := v1, clientPort := v2 } := by
  unfold loadClients
  simp only [scalarAt_two]
  generalize doc.get "clients" = node
  rcases node with _ | _ | _ | _ | es
  case some.map =>
    simp only [bind_ok]
    constructor
    · rintro ⟨b1, h1, h2⟩
      obtain ⟨v1, e1, rfl⟩ := (loadScalar_ok (·.clientAddress) rfl).1 h1
      obtain ⟨v2, e2, rfl⟩ := (loadScalar_ok (·.clientPort) rfl).1 h2
      exact ⟨v1, v2, e1, e2, rfl⟩
    · rintro ⟨v1, v2, e1, e2, rfl⟩
      exact ⟨_, (loadScalar_ok (·.clientAddress) rfl).2 ⟨v1, e1, rfl⟩,
        (loadScalar_ok (·.clientPort) rfl).2 ⟨v2, e2, rfl⟩⟩
  all_goals
    constructor
    · intro h; cases h; exact ⟨_, _, rfl, rfl, rfl⟩
    · rintro ⟨v1, v2, e1, e2, rfl⟩; cases e1; cases e2; rfl

theorem loadMonitor_ok {c : Conv} {doc : Yaml} {b b' : BrokerConfig} :
    loadMonitor c doc b = .ok b' ↔ ∃ v1 v2,
      resolve (Spec.scalarAt ["monitor", "address"] doc) some b.monitorAddress = some v1 ∧
      resolve (Spec.scalarAt ["monitor", "port"] doc) c.u16 b.monitorPort = some v2 ∧
      b' = { b with monitorAddress := v1, monitorPort := v2 } := by
  unfold loadMonitor
  simp only [scalarAt_two]
  generalize doc.get "monitor" = node
  rcases node with _ | _ | _ | _ | es
  case some.map =>
    simp only [bind_ok]
    constructor
    · rintro ⟨b1, h1, h2⟩
      obtain ⟨v1, e1, rfl⟩ := (loadScalar_ok (·.monitorAddress) rfl).1 h1
      obtain ⟨v2, e2, rfl⟩ := (loadScalar_ok (·.monitorPort) rfl).1 h2
      exact ⟨v1, v2, e1, e2, rfl⟩
    · rintro ⟨v1, v2, e1, e2, rfl⟩
      exact ⟨_, (loadScalar_ok (·.monitorAddress) rfl).2 ⟨v1, e1, rfl⟩,
        (loadScalar_ok (·.monitorPort) rfl).2 ⟨v2, e2, rfl⟩⟩
  all_goals
    constructor
    · intro h; cases h; exact ⟨_, _, rfl, rfl, rfl⟩
    · rintro ⟨v1, v2, e1, e2, rfl⟩; cases e1; cases e2; rfl

theorem loadWorkers_ok {c : Conv} {doc : Yaml} {b b' : BrokerConfig} :
    loadWorkers c doc b = .ok b' ↔ ∃ v1 v2 v3 v4 v5,
      resolve (Spec.scalarAt ["workers", "address"] doc) some b.workerAddress = some v1 ∧
      resolve (Spec.scalarAt ["workers", "port"] doc) c.u16 b.workerPort = some v2 ∧
      resolve (Spec.scalarAt ["workers", "max_liveness"] doc) c.size b.maxWorkerLiveness = some v3 ∧
      resolve (Spec.scalarAt ["workers", "max_request_failures"] doc) c.size b.maxRequestFailures =
        some v4 ∧
      resolve (Spec.scalarAt ["workers", "ping_interval"] doc) (fun s => (c.size s).map msOfSize)
        b.workerPingInterval = some v5 ∧
      b' = { b with workerAddress := v1, workerPort := v2, maxWorkerLiveness := v3,
                    maxRequestFailures := v4, workerPingInterval := v5 } := by
  have hp : ∀ (node : Option Yaml) (b b' : BrokerConfig),
      loadScalar node c.size (fun v b => { b with workerPingInterval := msOfSize v }) b = .ok b' ↔
      ∃ v, resolve (textOf node) (fun s => (c.size s).map msOfSize) b.workerPingInterval = some v ∧
        b' = { b with workerPingInterval := v } := by
    intro node b b'
    rw [loadScalar_eq]
    cases textOf node with
    | none =>
      exact ⟨fun h => by cases h; exact ⟨_, rfl, rfl⟩, fun ⟨v, h1, h2⟩ => by cases h1; cases h2; rfl⟩
    | some s =>
      simp only [resolve]
      cases c.size s <;> simp [eq_comm]
  unfold loadWorkers
  simp only [scalarAt_two]
  generalize doc.get "workers" = node
  rcases node with _ | _ | _ | _ | es
  case some.map =>
    simp only [bind_ok]
    constructor
    · rintro ⟨b1, h1, b2, h2, b3, h3, b4, h4, h5⟩
      obtain ⟨v1, e1, rfl⟩ := (loadScalar_ok (·.workerAddress) rfl).1 h1
      obtain ⟨v2, e2, rfl⟩ := (loadScalar_ok (·.workerPort) rfl).1 h2
      obtain ⟨v3, e3, rfl⟩ := (loadScalar_ok (·.maxWorkerLiveness) rfl).1 h3
      obtain ⟨v4, e4, rfl⟩ := (loadScalar_ok (·.maxRequestFailures) rfl).1 h4
      obtain ⟨v5, e5, rfl⟩ := (hp _ _ _).1 h5
      exact ⟨v1, v2, v3, v4, v5, e1, e2, e3, e4, e5, rfl⟩
    · rintro ⟨v1, v2, v3, v4, v5, e1, e2, e3, e4, e5, rfl⟩
      exact ⟨_, (loadScalar_ok (·.workerAddress) rfl).2 ⟨v1, e1, rfl⟩,
        _, (loadScalar_ok (·.workerPort) rfl).2 ⟨v2, e2, rfl⟩,
        _, (loadScalar_ok (·.maxWorkerLiveness) rfl).2 ⟨v3, e3, rfl⟩,
        _, (loadScalar_ok (·.maxRequestFailures) rfl).2 ⟨v4, e4, rfl⟩,
        (hp _ _ _).2 ⟨v5, e5, rfl⟩⟩
  all_goals
    constructor
    · intro h; cases h; exact ⟨_, _, _, _, _, rfl, rfl, rfl, rfl, rfl, rfl⟩
    · rintro ⟨v1, v2, v3, v4, v5, e1, e2, e3, e4, e5, rfl⟩
      cases e1; cases e2; cases e3; cases e4; cases e5; rfl

theorem loadNotifier_ok {c : Conv} {doc : Yaml} {b b' : BrokerConfig} :
    loadNotifier c doc b = .ok b' ↔ ∃ v1 v2 v3 v4,
      resolve (Spec.scalarAt ["notifier", "address"] doc) some b.notifier.address = some v1 ∧
      resolve (Spec.scalarAt ["notifier", "port"] doc) c.u16 b.notifier.port = some v2 ∧
      resolve (Spec.scalarAt ["notifier", "username"] doc) some b.notifier.username = some v3 ∧
      resolve (Spec.scalarAt ["notifier", "password"] doc) some b.notifier.password = some v4 ∧
      b' = { b with notifier := ⟨v1, v2, v3, v4⟩ } := by
  unfold loadNotifier
  simp only [scalarAt_two]
  generalize doc.get "notifier" = node
  rcases node with _ | _ | _ | _ | es
  case some.map =>
    simp only [bind_ok]
    constructor
    · rintro ⟨b1, h1, b2, h2, b3, h3, h4⟩
      obtain ⟨v1, e1, rfl⟩ := (loadScalar_ok (·.notifier.address) rfl).1 h1
      obtain ⟨v2, e2, rfl⟩ := (loadScalar_ok (·.notifier.port) rfl).1 h2
      obtain ⟨v3, e3, rfl⟩ := (loadScalar_ok (·.notifier.username) rfl).1 h3
      obtain ⟨v4, e4, rfl⟩ := (loadScalar_ok (·.notifier.password) rfl).1 h4
      exact ⟨v1, v2, v3, v4, e1, e2, e3, e4, rfl⟩
    · rintro ⟨v1, v2, v3, v4, e1, e2, e3, e4, rfl⟩
      exact ⟨_, (loadScalar_ok (·.notifier.address) rfl).2 ⟨v1, e1, rfl⟩,
        _, (loadScalar_ok (·.notifier.port) rfl).2 ⟨v2, e2, rfl⟩,
        _, (loadScalar_ok (·.notifier.username) rfl).2 ⟨v3, e3, rfl⟩,
        (loadScalar_ok (·.notifier.password) rfl).2 ⟨v4, e4, rfl⟩⟩
  all_goals
    constructor
    · intro h; cases h; exact ⟨_, _, _, _, rfl, rfl, rfl, rfl, rfl⟩
    · rintro ⟨v1, v2, v3, v4, e1, e2, e3, e4, rfl⟩
      cases e1; cases e2; cases e3; cases e4; rfl

theorem loadLogger_ok {c : Conv} {doc : Yaml} {b b' : BrokerConfig} :
    loadLogger c doc b = .ok b' ↔ ∃ v1 v2 v3 v4 v5,
      resolve (Spec.scalarAt ["logger", "file"] doc) (fun s => some (c.filename s)) b.log.logBasename =
        some v1 ∧
      resolve (Spec.scalarAt ["logger", "file"] doc) (fun s => some (c.parentPath s)) b.log.logPath =
        some v2 ∧
      resolve (Spec.scalarAt ["logger", "level"] doc) some b.log.logLevel = some v3 ∧
      resolve (Spec.scalarAt ["logger", "max-size"] doc) c.size b.log.logFileSize = some v4 ∧
      resolve (Spec.scalarAt ["logger", "rotations"] doc) c.size b.log.logFilesCount = some v5 ∧
      b' = { b with log := ⟨v2, v1, b.log.logSuffix, v3, v4, v5⟩ } := by
  have hp : ∀ (node : Option Yaml) (b b' : BrokerConfig),
      loadScalar node some (fun v b => { b with
        log := { b.log with logBasename := c.filename v, logPath := c.parentPath v } }) b = .ok b' ↔
      ∃ v w, resolve (textOf node) (fun s => some (c.filename s)) b.log.logBasename = some v ∧
        resolve (textOf node) (fun s => some (c.parentPath s)) b.log.logPath = some w ∧
        b' = { b with log := { b.log with logBasename := v, logPath := w } } := by
    intro node b b'
    rw [loadScalar_eq]
    cases textOf node with
    | none =>
      exact ⟨fun h => by cases h; exact ⟨_, _, rfl, rfl, rfl⟩,
        fun ⟨v, w, h1, h2, h3⟩ => by cases h1; cases h2; cases h3; rfl⟩
    | some s => simp [resolve, eq_comm]
  unfold loadLogger
  simp only [scalarAt_two]
  generalize doc.get "logger" = node
  rcases node with _ | _ | _ | _ | es
  case some.map =>
    simp only [bind_ok]
    constructor
    · rintro ⟨b1, h1, b2, h2, b3, h3, h4⟩
      obtain ⟨v1, w1, e1, f1, rfl⟩ := (hp _ _ _).1 h1
      obtain ⟨v2, e2, rfl⟩ := (loadScalar_ok (·.log.logLevel) rfl).1 h2
      obtain ⟨v3, e3, rfl⟩ := (loadScalar_ok (·.log.logFileSize) rfl).1 h3
      obtain ⟨v4, e4, rfl⟩ := (loadScalar_ok (·.log.logFilesCount) rfl).1 h4
      exact ⟨v1, w1, v2, v3, v4, e1, f1, e2, e3, e4, rfl⟩
    · rintro ⟨v1, w1, v2, v3, v4, e1, f1, e2, e3, e4, rfl⟩
      exact ⟨_, (hp _ _ _).2 ⟨v1, w1, e1, f1, rfl⟩,
        _, (loadScalar_ok (·.log.logLevel) rfl).2 ⟨v2, e2, rfl⟩,
        _, (loadScalar_ok (·.log.logFileSize) rfl).2 ⟨v3, e3, rfl⟩,
        (loadScalar_ok (·.log.logFilesCount) rfl).2 ⟨v4, e4, rfl⟩⟩
  all_goals
    constructor
    · intro h; cases h; exact ⟨_, _, _, _, _, rfl, rfl, rfl, rfl, rfl, rfl⟩
    · rintro ⟨v1, w1, v2, v3, v4, e1, f1, e2, e3, e4, rfl⟩
      cases e1; cases f1; cases e2; cases e3; cases e4; rfl

theorem resolve_takes {α : Type} {o : Option String} {as : String → Option α} {d w : α}
    (h : resolve o as d = some w) (f : α → Spec.Val) :
    (o = none → f w = f d) ∧ ∀ s, o = some s → (as s).map f = some (f w) := by
  unfold resolve at h
  constructor
  · rintro rfl; cases h; rfl
  · rintro s rfl
    simp only at h
    rw [h]; rfl

theorem millis_eq (o : Option Nat) : (o.map msOfSize).map Spec.Val.num =
    o.map fun (n : Nat) => .num (if (n : Int) < 2 ^ 63 then n else (n : Int) - 2 ^ 64) := by
  cases o with
  | none => rfl
  | some n =>
    simp only [Option.map_some, msOfSize, SZ, Option.some.injEq, Spec.Val.num.injEq]
    by_cases h : n < 9223372036854775808
    · rw [if_pos h, if_pos (by omega)]
    · rw [if_neg h, if_neg (by omega)]
      rfl

theorem loadConfig_ok {c : Conv} {junk : Nat} {doc : Yaml} {b : BrokerConfig}
    (h : loadConfig c junk doc = .ok b) : (∃ es, doc = .map es) ∧
    ∀ i ∈ Spec.items ++ [Spec.notifierPort junk],
      (Spec.scalarAt i.path doc = none → i.read b = i.default) ∧
      (∀ s, Spec.scalarAt i.path doc = some s → i.conv c s = some (i.read b)) := by
  unfold loadConfig at h
  split at h
  rotate_left
  · cases h
  rename_i hm
  have hmap : ∃ es, doc = .map es := by
    cases doc with
    | map es => exact ⟨es, rfl⟩
    | _ => exact absurd hm (by simp [Yaml.isMap])
  refine ⟨hmap, ?_⟩
  simp only [bind_ok] at h
  obtain ⟨b0, h0, b1, h1, b2, h2, b3, h3, b4, h4, h5⟩ := h
  obtain ⟨q1, k1, rfl⟩ := (loadScalar_ok (·.queueManager) rfl).1 h0
  rw [← scalarAt_one] at k1
  obtain ⟨c1, c2, e1, e2, rfl⟩ := loadClients_ok.1 h1
  obtain ⟨w1, w2, w3, w4, w5, f1, f2, f3, f4, f5, rfl⟩ := loadWorkers_ok.1 h2
  obtain ⟨m1, m2, g1, g2, rfl⟩ := loadMonitor_ok.1 h3
  obtain ⟨n1, n2, n3, n4, i1, i2, i3, i4, rfl⟩ := loadNotifier_ok.1 h4
  obtain ⟨l1, l2, l3, l4, l5, j1, j2, j3, j4, j5, rfl⟩ := loadLogger_ok.1 h5
  intro i hi
  simp only [Spec.items, List.cons_append, List.nil_append, List.mem_cons, List.not_mem_nil,
    or_false] at hi
  rcases hi with rfl | rfl | rfl | rfl | rfl | rfl | rfl | rfl | rfl | rfl | rfl | rfl | rfl | rfl |
    rfl | rfl | rfl | rfl | rfl
  · exact resolve_takes k1 .text
  · exact resolve_takes e1 .text
  · exact resolve_takes e2 (fun (n : Nat) => .num n)
  · exact resolve_takes f1 .text
  · exact resolve_takes f2 (fun (n : Nat) => .num n)
  · exact resolve_takes f3 (fun (n : Nat) => .num n)
  · exact resolve_takes f4 (fun (n : Nat) => .num n)
  · have := resolve_takes f5 Spec.Val.num
    simp only [millis_eq] at this
    exact this
  · exact resolve_takes g1 .text
  · exact resolve_takes g2 (fun (n : Nat) => .num n)
  · exact resolve_takes i1 .text
  · exact resolve_takes i3 .text
  · exact resolve_takes i4 .text
  · exact resolve_takes j1 .text
  · exact resolve_takes j2 .text
  · exact resolve_takes j3 .text
  · exact resolve_takes j4 (fun (n : Nat) => .num n)
  · exact resolve_takes j5 (fun (n : Nat) => .num n)
  · exact resolve_takes i2 (fun (n : Nat) => .num n)

theorem resolve_some {α : Type} {o : Option String} {as : String → Option α} (d : α)
    (f : α → Spec.Val) (h : ∀ s, o = some s → ((as s).map f).isSome) :
    ∃ w, resolve o as d = some w := by
  cases o with
  | none => exact ⟨d, rfl⟩
  | some s =>
    have := h s rfl
    simp only [Option.isSome_map] at this
    exact Option.isSome_iff_exists.1 this

theorem toNat_byte : ∀ n < 256, (Char.ofNat n).toNat = n := by decide +kernel

theorem hexByte_low {n : Nat} (h : n < 128) :
    hexByte (Char.ofNat n) = [hexDigit (n / 16), hexDigit (n % 16)] := by
  have e := toNat_byte n (by omega)
  unfold hexByte
  simp only [e, if_pos h]

theorem hexByte_high {n : Nat} (h : 128 ≤ n) (h' : n < 256) : hexByte (Char.ofNat n) =
    ['f', 'f', 'f', 'f', 'f', 'f', hexDigit (n / 16), hexDigit (n % 16)] := by
  have e := toNat_byte n (by omega)
  unfold hexByte
  simp only [e, if_neg (Nat.not_lt.2 h)]

theorem hexByte_table : ∀ n < 256,
    ((n < 128 → ∃ a b, hexByte (Char.ofNat n) = [a, b]) ∧
     (128 ≤ n → ∃ a b, hexByte (Char.ofNat n) = ['f', 'f', 'f', 'f', 'f', 'f', a, b])) ∧
    (hexByte (Char.ofNat n)).all (fun c => decide (('0' ≤ c ∧ c ≤ '9') ∨ ('a' ≤ c ∧ c ≤ 'f'))) := by
  intro n hn
  refine ⟨⟨fun h => ⟨_, _, hexByte_low h⟩, fun h => ⟨_, _, hexByte_high h hn⟩⟩, ?_⟩
  revert n
  decide +kernel

theorem hexDigit_inj : ∀ a < 16, ∀ b < 16, hexDigit a = hexDigit b → a = b := by decide

theorem hexDigit_low : ∀ a < 8, hexDigit a ≠ 'f' := by decide

theorem hexByte_prefix (m : Nat) (hm : m < 256) (n : Nat) (hn : n < 256)
    (h : hexByte (Char.ofNat m) <+: hexByte (Char.ofNat n)) : m = n := by
  have key : hexDigit (m / 16) = hexDigit (n / 16) → hexDigit (m % 16) = hexDigit (n % 16) → m = n := by
    intro h1 h2
    have e1 := hexDigit_inj _ (by omega) _ (by omega) h1
    have e2 := hexDigit_inj _ (by omega) _ (by omega) h2
    omega
  by_cases h1 : m < 128 <;> by_cases h2 : n < 128
  · rw [hexByte_low h1, hexByte_low h2] at h
    simp only [List.cons_prefix_cons, List.prefix_nil, and_true] at h
    exact key h.1 h.2
  · rw [hexByte_low h1, hexByte_high (by omega) hn] at h
    simp only [List.cons_prefix_cons] at h
    exact absurd h.1 (hexDigit_low _ (by omega))
  · rw [hexByte_high (by omega) hm, hexByte_low h2] at h
    have := h.length_le
    simp at this
  · rw [hexByte_high (by omega) hm, hexByte_high (by omega) hn] at h
    simp only [List.cons_prefix_cons, List.prefix_nil, and_true, true_and] at h
    exact key h.1 h.2

theorem hexByte_hex {c : Char} (h : c.toNat < 256) : ∀ x ∈ hexByte c, Spec.isHex x := by
  have := (hexByte_table c.toNat h).2
  rw [Char.ofNat_toNat] at this
  simpa [List.all_eq_true, Spec.isHex] using this

theorem flatMap_hex_inj : ∀ (l l' : List Char), (∀ c ∈ l, c.toNat < 256) → (∀ c ∈ l', c.toNat < 256) →
    l.flatMap hexByte = l'.flatMap hexByte → l = l' := by
  intro l
  induction l with
  | nil =>
    intro l' _ h' he
    cases l' with
    | nil => rfl
    | cons c t =>
      exfalso
      have hc := h' c (by simp)
      have := (hexByte_table c.toNat hc).1
      rw [Char.ofNat_toNat] at this
      simp only [List.flatMap_nil, List.flatMap_cons] at he
      by_cases h : c.toNat < 128
      · obtain ⟨a, b, e⟩ := this.1 h
        rw [e] at he; cases he
      · obtain ⟨a, b, e⟩ := this.2 (by omega)
        rw [e] at he; cases he
  | cons c t ih =>
    intro l' h h' he
    have hc := h c (by simp)
    have htab := (hexByte_table c.toNat hc).1
    rw [Char.ofNat_toNat] at htab
    cases l' with
    | nil =>
      exfalso
      simp only [List.flatMap_nil, List.flatMap_cons] at he
      by_cases hlt : c.toNat < 128
      · obtain ⟨a, b, e⟩ := htab.1 hlt
        rw [e] at he; cases he
      · obtain ⟨a, b, e⟩ := htab.2 (by omega)
        rw [e] at he; cases he
    | cons c' t' =>
      have hc' := h' c' (by simp)
      simp only [List.flatMap_cons] at he
      have hcc : c = c' := by
        have h1 : hexByte c <+: hexByte c' ++ t'.flatMap hexByte := ⟨_, he⟩
        have h2 : hexByte c' <+: hexByte c' ++ t'.flatMap hexByte := List.prefix_append _ _
        have hnat : c.toNat = c'.toNat := by
          rcases List.prefix_or_prefix_of_prefix h1 h2 with hp | hp
          · exact hexByte_prefix _ hc _ hc' (by rwa [Char.ofNat_toNat, Char.ofNat_toNat])
          · exact (hexByte_prefix _ hc' _ hc (by rwa [Char.ofNat_toNat, Char.ofNat_toNat])).symm
        rw [← Char.ofNat_toNat c, hnat, Char.ofNat_toNat]
      subst hcc
      rw [ih t' (fun x hx => h x (by simp [hx])) (fun x hx => h' x (by simp [hx]))
        (List.append_cancel_left he)]

end Broker
