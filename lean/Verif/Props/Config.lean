import Verif.Proof.Config

/-!
# Configuration, start, log levels, descriptions of workers (C37-C40, C50, C53)
-/

namespace Broker

deriving instance DecidableEq for Except

/-! ## C37 -/

/-- **C37, values.** In a configuration that was loaded, an item for which the document has a scalar at
    its place has the value converted from that scalar, and any other item has its default (the
    "default" of the port of the notifier is whatever the memory held, see C38). -/
theorem C37_values {c : Conv} {junk : Nat} {doc : Yaml} {b : BrokerConfig}
    (h : loadConfig c junk doc = .ok b) :
    ∀ i ∈ Spec.items ++ [Spec.notifierPort junk],
      (Spec.scalarAt i.path doc = none → i.read b = i.default) ∧
      (∀ s, Spec.scalarAt i.path doc = some s → i.conv c s = some (i.read b)) :=
  (loadConfig_ok h).2

/-- **C37, acceptance.** A document is accepted iff it is a map and every scalar given for an item can
    be converted.  Nothing else matters: neither unknown keys, nor sections or items of another
    shape. -/
theorem C37_accepted (c : Conv) (junk : Nat) (doc : Yaml) :
    (∃ b, loadConfig c junk doc = .ok b) ↔ (∃ es, doc = .map es) ∧
      ∀ i ∈ Spec.items ++ [Spec.notifierPort junk], ∀ s, Spec.scalarAt i.path doc = some s →
        (i.conv c s).isSome := by
  constructor
  · rintro ⟨b, h⟩
    obtain ⟨h1, h2⟩ := loadConfig_ok h
    exact ⟨h1, fun i hi s hs => by rw [(h2 i hi).2 s hs]; rfl⟩
  · rintro ⟨⟨es, rfl⟩, h⟩
    simp only [Spec.items, List.cons_append, List.nil_append, List.forall_mem_cons] at h
    obtain ⟨a1, a2, a3, a4, a5, a6, a7, a8, a9, a10, a11, a12, a13, a14, a15, a16, a17, a18, a19, -⟩ := h
    obtain ⟨q, k⟩ := resolve_some "single" _ (as := some) a1
    rw [scalarAt_one] at k
    obtain ⟨c1, e1⟩ := resolve_some "*" _ (as := some) a2
    obtain ⟨c2, e2⟩ := resolve_some 0 (fun (n : Nat) => Spec.Val.num n) (as := c.u16) a3
    obtain ⟨w1, f1⟩ := resolve_some "*" _ (as := some) a4
    obtain ⟨w2, f2⟩ := resolve_some 0 (fun (n : Nat) => Spec.Val.num n) (as := c.u16) a5
    obtain ⟨w3, f3⟩ := resolve_some 4 (fun (n : Nat) => Spec.Val.num n) (as := c.size) a6
    obtain ⟨w4, f4⟩ := resolve_some 3 (fun (n : Nat) => Spec.Val.num n) (as := c.size) a7
    obtain ⟨w5, f5⟩ := resolve_some 1000 Spec.Val.num (as := fun s => (c.size s).map msOfSize)
      (fun s hs => by rw [millis_eq]; exact a8 s hs)
    obtain ⟨m1, g1⟩ := resolve_some "127.0.0.1" _ (as := some) a9
    obtain ⟨m2, g2⟩ := resolve_some 7894 (fun (n : Nat) => Spec.Val.num n) (as := c.u16) a10
    obtain ⟨n1, i1⟩ := resolve_some "" _ (as := some) a11
    obtain ⟨n3, i3⟩ := resolve_some "" _ (as := some) a12
    obtain ⟨n4, i4⟩ := resolve_some "" _ (as := some) a13
    obtain ⟨l1, j1⟩ := resolve_some "broker" Spec.Val.text (as := fun s => some (c.filename s)) a14
    obtain ⟨l2, j2⟩ := resolve_some "/var/log/recodex/" Spec.Val.text
      (as := fun s => some (c.parentPath s)) a15
    obtain ⟨l3, j3⟩ := resolve_some "debug" _ (as := some) a16
    obtain ⟨l4, j4⟩ := resolve_some (1024 * 1024) (fun (n : Nat) => Spec.Val.num n) (as := c.size) a17
    obtain ⟨l5, j5⟩ := resolve_some 3 (fun (n : Nat) => Spec.Val.num n) (as := c.size) a18
    obtain ⟨n2, i2⟩ := resolve_some junk (fun (n : Nat) => Spec.Val.num n) (as := c.u16) a19
    unfold loadConfig
    rw [if_pos (show (Yaml.map es).isMap = true from rfl)]
    simp only [bind_ok]
    exact ⟨_, _, (loadScalar_ok (·.queueManager) rfl).2 ⟨q, k, rfl⟩,
      _, loadClients_ok.2 ⟨c1, c2, e1, e2, rfl⟩,
      _, loadWorkers_ok.2 ⟨w1, w2, w3, w4, w5, f1, f2, f3, f4, f5, rfl⟩,
      _, loadMonitor_ok.2 ⟨m1, m2, g1, g2, rfl⟩,
      _, loadNotifier_ok.2 ⟨n1, n2, n3, n4, i1, i2, i3, i4, rfl⟩,
      loadLogger_ok.2 ⟨l1, l2, l3, l4, l5, j1, j2, j3, j4, j5, rfl⟩⟩

/-- **C37, independence.** An item has the same value in two configurations whose documents agree at its
    place, whatever else they contain. -/
theorem C37_independent {c : Conv} {junk : Nat} {doc doc' : Yaml} {b b' : BrokerConfig}
    (h : loadConfig c junk doc = .ok b) (h' : loadConfig c junk doc' = .ok b') {i : Spec.Item}
    (hi : i ∈ Spec.items ++ [Spec.notifierPort junk])
    (he : Spec.scalarAt i.path doc = Spec.scalarAt i.path doc') : i.read b = i.read b' := by
  obtain ⟨h1, h2⟩ := C37_values h i hi
  obtain ⟨h1', h2'⟩ := C37_values h' i hi
  cases hs : Spec.scalarAt i.path doc with
  | none => rw [h1 hs, h1' (by rw [← he, hs])]
  | some s =>
    have e1 := h2 s hs
    rw [h2' s (by rw [← he, hs])] at e1
    exact (Option.some.inj e1).symm

/-- **C37, ranges.** The numbers the handler reads are within their types. -/
theorem C37_ranges {c : Conv} {junk : Nat} {doc : Yaml} {b : BrokerConfig}
    (h : loadConfig c junk doc = .ok b) : b.maxWorkerLiveness < SZ ∧ b.maxRequestFailures < SZ ∧
    b.clientPort < 65536 ∧ b.workerPort < 65536 ∧ b.monitorPort < 65536 := by
  have key : ∀ (i : Spec.Item) (n : Nat) (B : Nat) (f : String → Option Nat),
      i ∈ Spec.items ++ [Spec.notifierPort junk] → i.read b = .num n →
      (∀ s, i.conv c s = (f s).map fun (n : Nat) => Spec.Val.num (n : Int)) → (∀ s n, f s = some n → n < B) →
      (∀ d : Nat, i.default = .num d → d < B) → n < B := by
    intro i n B f hi hr hc hf hd
    obtain ⟨h1, h2⟩ := C37_values h i hi
    cases hs : Spec.scalarAt i.path doc with
    | none => exact hd n ((h1 hs).symm.trans hr)
    | some s =>
      have := h2 s hs
      rw [hc, hr] at this
      cases hv : f s with
      | none => rw [hv] at this; cases this
      | some v =>
        rw [hv] at this
        simp only [Option.map_some, Option.some.injEq, Spec.Val.num.injEq, Int.natCast_inj] at this
        subst this
        exact hf s _ hv
  have hd : ∀ {x d : Nat}, Spec.Val.num (x : Int) = .num (d : Int) → x = d := by
    intro x d h
    simp only [Spec.Val.num.injEq] at h
    omega
  refine ⟨key ⟨["workers", "max_liveness"], Spec.asSize, .num 4, fun b => .num b.maxWorkerLiveness⟩ _ SZ
      c.size (by simp [Spec.items]) rfl (fun _ => rfl) (fun _ _ => c.size_lt) ?_,
    key ⟨["workers", "max_request_failures"], Spec.asSize, .num 3, fun b => .num b.maxRequestFailures⟩ _ SZ
      c.size (by simp [Spec.items]) rfl (fun _ => rfl) (fun _ _ => c.size_lt) ?_,
    key ⟨["clients", "port"], Spec.asPort, .num 0, fun b => .num b.clientPort⟩ _ 65536
      c.u16 (by simp [Spec.items]) rfl (fun _ => rfl) (fun _ _ => c.u16_lt) ?_,
    key ⟨["workers", "port"], Spec.asPort, .num 0, fun b => .num b.workerPort⟩ _ 65536
      c.u16 (by simp [Spec.items]) rfl (fun _ => rfl) (fun _ _ => c.u16_lt) ?_,
    key ⟨["monitor", "port"], Spec.asPort, .num 7894, fun b => .num b.monitorPort⟩ _ 65536
      c.u16 (by simp [Spec.items]) rfl (fun _ => rfl) (fun _ _ => c.u16_lt) ?_⟩
  · intro d h; have := hd (x := 4) h; subst this; unfold SZ; omega
  · intro d h; have := hd (x := 3) h; subst this; unfold SZ; omega
  · intro d h; have := hd (x := 0) h; omega
  · intro d h; have := hd (x := 0) h; omega
  · intro d h; have := hd (x := 7894) h; omega

/-- Decimal numbers. -/
def decimal0 (s : String) : Option Nat :=
  match numParse s with
  | some (false, n) => some n
  | _ => none

/-- Conversions for examples. -/
def conv0 : Conv where
  u16 s := (decimal0 s).filter (· < 65536)
  u16_lt := by
    intro s n h
    simp only [Option.filter_eq_some_iff, decide_eq_true_eq] at h
    exact h.2
  size s := (decimal0 s).filter (· < SZ)
  size_lt := by
    intro s n h
    simp only [Option.filter_eq_some_iff, decide_eq_true_eq] at h
    exact h.2
  filename s := s
  parentPath _ := ""

/-- A map with scalar keys. -/
def ymap (l : List (String × Yaml)) : Yaml := .map (l.map fun e => (.scalar e.1, e.2))

/-- A document with some items, one of the wrong shape, and an unknown one. -/
def doc0 : Yaml := ymap
  [("clients", ymap [("port", .scalar "9658")]),
   ("workers", ymap [("max_liveness", .scalar "10"), ("port", .seq [.scalar "1"])]),
   ("notifier", ymap [("address", .scalar "http://localhost"), ("port", .scalar "8080")]),
   ("queue_manager", .null), ("colour", .scalar "red")]

example : loadConfig conv0 7 doc0 = .ok
    { clientPort := 9658, maxWorkerLiveness := 10,
      notifier := ⟨"http://localhost", 8080, "", ""⟩ } := by decide +kernel

/-- Paths are split at the last `/`. -/
def convPaths : Conv :=
  { conv0 with
    filename := fun s => String.ofList (s.toList.reverse.takeWhile (· != '/')).reverse
    parentPath := fun s => String.ofList ((s.toList.reverse.dropWhile (· != '/')).drop 1).reverse }

/-- The document that comes with the broker (examples/config.yml). -/
def docShipped : Yaml := ymap
  [("clients", ymap [("address", .scalar "*"), ("port", .scalar "9658")]),
   ("workers", ymap [("address", .scalar "*"), ("port", .scalar "9657"), ("max_liveness", .scalar "4"),
     ("ping_interval", .scalar "1000")]),
   ("notifier", ymap [("address", .scalar "https://your.recodex.domain/api/v1/broker-reports"),
     ("port", .scalar "443"), ("username", .scalar "rebroker"),
     ("password", .scalar "generateSecretPasswdHere")]),
   ("monitor", ymap [("address", .scalar "127.0.0.1"), ("port", .scalar "7894")]),
   ("logger", ymap [("file", .scalar "/var/log/recodex/broker"), ("level", .scalar "debug"),
     ("max-size", .scalar "1048576"), ("rotations", .scalar "3")]),
   ("queue_manager", .scalar "single")]

example : loadConfig convPaths 7 docShipped = .ok
    { queueManager := "single", clientAddress := "*", workerAddress := "*",
      monitorAddress := "127.0.0.1", clientPort := 9658, workerPort := 9657, monitorPort := 7894,
      maxWorkerLiveness := 4, maxRequestFailures := 3, workerPingInterval := 1000,
      log := { logPath := "/var/log/recodex", logBasename := "broker", logSuffix := "log",
               logLevel := "debug", logFileSize := 1048576, logFilesCount := 3 },
      notifier := ⟨"https://your.recodex.domain/api/v1/broker-reports", 443, "rebroker",
        "generateSecretPasswdHere"⟩ } := by decide +kernel

/-- Documents that are rejected. -/
example : loadConfig conv0 7 (.seq [doc0]) = .error ⟨⟩ ∧ loadConfig conv0 7 .null = .error ⟨⟩ ∧
    loadConfig conv0 7 (ymap [("clients", ymap [("port", .scalar "65536")])]) = .error ⟨⟩ ∧
    loadConfig conv0 7 (ymap [("logger", ymap [("rotations", .scalar "many")])]) = .error ⟨⟩ := by
  decide +kernel

/-! ## C38 -/

/-- **C38 (partial).** If the document gives a port for the notifier, the configuration does not depend
    on what the memory held.  Missing: it does if no port is given, see `C38_refuted`. -/
theorem C38_partial (c : Conv) (doc : Yaml) {s : String}
    (hs : Spec.scalarAt ["notifier", "port"] doc = some s) (junk junk' : Nat) :
    loadConfig c junk doc = loadConfig c junk' doc := by
  have hn : ∀ b : BrokerConfig, ∀ p, loadNotifier c doc b =
      loadNotifier c doc { b with notifier := { b.notifier with port := p } } := by
    intro b p
    cases hl : loadNotifier c doc b with
    | ok b' =>
      obtain ⟨v1, v2, v3, v4, e1, e2, e3, e4, rfl⟩ := loadNotifier_ok.1 hl
      rw [hs] at e2
      exact (loadNotifier_ok (b := { b with notifier := { b.notifier with port := p } }).2
        ⟨v1, v2, v3, v4, e1, by rw [hs]; exact e2, e3, e4, rfl⟩).symm
    | error x =>
      cases hl' : loadNotifier c doc { b with notifier := { b.notifier with port := p } } with
      | error y => rfl
      | ok b' =>
        obtain ⟨v1, v2, v3, v4, e1, e2, e3, e4, rfl⟩ := loadNotifier_ok.1 hl'
        rw [hs] at e2
        have := (loadNotifier_ok (b := b)).2 ⟨v1, v2, v3, v4, e1, by rw [hs]; exact e2, e3, e4, rfl⟩
        exact absurd (hl.symm.trans this) (by simp)
  have key : ∀ junk junk' b, loadConfig c junk doc = .ok b → loadConfig c junk' doc = .ok b := by
    intro junk junk' b h
    unfold loadConfig at h ⊢
    split at h
    rotate_left
    · cases h
    rename_i hm
    rw [if_pos hm]
    simp only [bind_ok] at h ⊢
    obtain ⟨b0, h0, b1, h1, b2, h2, b3, h3, b4, h4, h5⟩ := h
    obtain ⟨q1, k1, rfl⟩ := (loadScalar_ok (·.queueManager) rfl).1 h0
    obtain ⟨c1, c2, e1, e2, rfl⟩ := loadClients_ok.1 h1
    obtain ⟨w1, w2, w3, w4, w5, f1, f2, f3, f4, f5, rfl⟩ := loadWorkers_ok.1 h2
    obtain ⟨m1, m2, g1, g2, rfl⟩ := loadMonitor_ok.1 h3
    rw [hn _ junk'] at h4
    exact ⟨_, (loadScalar_ok (·.queueManager) rfl).2 ⟨q1, k1, rfl⟩,
      _, loadClients_ok.2 ⟨c1, c2, e1, e2, rfl⟩,
      _, loadWorkers_ok.2 ⟨w1, w2, w3, w4, w5, f1, f2, f3, f4, f5, rfl⟩,
      _, loadMonitor_ok.2 ⟨m1, m2, g1, g2, rfl⟩, b4, h4, h5⟩
  cases h : loadConfig c junk doc with
  | ok b => exact (key junk junk' b h).symm
  | error x =>
    cases h' : loadConfig c junk' doc with
    | error y => rfl
    | ok b => rw [key junk' junk b h'] at h; cases h

/-- **C38, the other items.** Every other item is determined by the document. -/
theorem C38_other_items {c : Conv} {doc : Yaml} {junk junk' : Nat} {b b' : BrokerConfig}
    (h : loadConfig c junk doc = .ok b) (h' : loadConfig c junk' doc = .ok b') :
    ∀ i ∈ Spec.items, i.read b = i.read b' := by
  intro i hi
  obtain ⟨h1, h2⟩ := C37_values h i (List.mem_append_left _ hi)
  obtain ⟨h1', h2'⟩ := C37_values h' i (List.mem_append_left _ hi)
  cases hs : Spec.scalarAt i.path doc with
  | none => rw [h1 hs, h1' hs]
  | some s =>
    have e1 := h2 s hs
    rw [h2' s hs] at e1
    exact (Option.some.inj e1).symm

/-- **C38 is false**: with a document that gives no port for the notifier the broker starts, and the
    port its notifications are posted to depends on what the memory held. -/
theorem C38_refuted : ¬ ∀ (c : Conv) (doc : Yaml) (junk junk' : Nat) (m m' : Manager)
      (b b' : BrokerConfig), junk < 65536 → junk' < 65536 →
      startBroker c junk (some doc) true true = .running m b →
      startBroker c junk' (some doc) true true = .running m' b' →
      ∀ (outcome : Nat → Bool) (msg : Msg),
        notifierOnRequest b.notifier outcome msg = notifierOnRequest b'.notifier outcome msg := by
  intro H
  have h := H conv0 (ymap [("notifier", ymap [("address", .scalar "http://localhost")])]) 80 4711
    .single .single { notifier := ⟨"http://localhost", 80, "", ""⟩ }
    { notifier := ⟨"http://localhost", 4711, "", ""⟩ } (by decide) (by decide) (by decide +kernel)
    (by decide +kernel) (fun _ => true) ⟨"status_notifier", "", ["type", "error", "message", "x"]⟩
  exact absurd h (by decide +kernel)

/-! ## C39 -/

/-- A string as the model of C++ strings allows it: all characters are bytes. -/
def Bytes (s : String) : Prop := ∀ c ∈ s.toList, c.toNat < 256

/-- **C39, injectivity.** Different byte strings have different renderings. -/
theorem C39_injective {s s' : String} (hs : Bytes s) (hs' : Bytes s')
    (h : stringToHex s = stringToHex s') : s = s' := by
  unfold stringToHex at h
  have := flatMap_hex_inj _ _ hs hs' (by simpa using congrArg String.toList h)
  rw [← String.ofList_toList (s := s), this, String.ofList_toList]

/-- **C39, digits.** The rendering consists of lower-case hexadecimal digits. -/
theorem C39_digits {s : String} (hs : Bytes s) : ∀ c ∈ (stringToHex s).toList, Spec.isHex c := by
  intro c hc
  unfold stringToHex at hc
  simp only [String.toList_ofList, List.mem_flatMap] at hc
  obtain ⟨x, hx, hc⟩ := hc
  exact hexByte_hex (hs x hx) c hc

/-- **C39 (partial).** Bytes below 0x80 are rendered with two digits each.  Missing: others are not,
    see `C39_refuted`. -/
theorem C39_two_digits_partial {s : String} (hs : ∀ c ∈ s.toList, c.toNat < 128) :
    (stringToHex s).toList.length = 2 * s.toList.length := by
  unfold stringToHex
  rw [String.toList_ofList]
  generalize s.toList = l at hs
  induction l with
  | nil => rfl
  | cons c t ih =>
    have hc := hs c (by simp)
    obtain ⟨a, b, e⟩ := (hexByte_table c.toNat (by omega)).1.1 hc
    rw [Char.ofNat_toNat] at e
    rw [List.flatMap_cons, e, List.length_append, ih (fun x hx => hs x (by simp [hx]))]
    simp only [List.length_cons, List.length_nil]
    omega

/-- **C39 is false** as far as two digits per byte go: the byte 0x80 is rendered with eight. -/
theorem C39_refuted : ¬ ∀ s : String, Bytes s → (stringToHex s).toList.length = 2 * s.toList.length := by
  intro H
  have := H "\x80" (by intro c hc; revert c; decide)
  exact absurd this (by decide +kernel)

example : stringToHex "a\x00\xff" = "6100ffffffff" := by decide +kernel

/-- **C39, descriptions.** Workers with the same description (as written to the log and into failure
    messages) have the same identity and the same text. -/
theorem C39_descriptions {w w' : Worker} (hw : Bytes w.identity) (hw' : Bytes w'.identity)
    (h : w.getDescription = w'.getDescription) :
    w.identity = w'.identity ∧ w.description = w'.description := by
  have key : ∀ (a b c d : List Char), (∀ x ∈ a, x ≠ ' ') → (∀ x ∈ b, x ≠ ' ') →
      a ++ ' ' :: c = b ++ ' ' :: d → a = b ∧ c = d := by
    intro a
    induction a with
    | nil =>
      intro b c d _ hb h
      cases b with
      | nil => simpa using h
      | cons y t =>
        simp only [List.nil_append, List.cons_append, List.cons.injEq] at h
        exact absurd h.1.symm (hb y (by simp))
    | cons x t ih =>
      intro b c d ha hb h
      cases b with
      | nil =>
        simp only [List.nil_append, List.cons_append, List.cons.injEq] at h
        exact absurd h.1 (ha x (by simp))
      | cons y t' =>
        simp only [List.cons_append, List.cons.injEq] at h
        obtain ⟨e1, e2⟩ := ih t' c d (fun z hz => ha z (by simp [hz])) (fun z hz => hb z (by simp [hz])) h.2
        exact ⟨by rw [h.1, e1], e2⟩
  have nosp : ∀ {s : String}, Bytes s → ∀ x ∈ (stringToHex s).toList, x ≠ ' ' := by
    intro s hs x hx
    rintro rfl
    have := C39_digits hs _ hx
    exact absurd this (by unfold Spec.isHex; decide)
  have hl : ∀ v : Worker, v.getDescription.toList = (stringToHex v.identity).toList ++
      (if v.description = "" then [] else ' ' :: '(' :: (v.description.toList ++ [')'])) := by
    intro v
    unfold Worker.getDescription
    split
    · simp
    · simp [String.toList_append]
  have hh := congrArg String.toList h
  rw [hl w, hl w'] at hh
  have inj : ∀ {s t : String}, s.toList = t.toList → s = t := by
    intro s t h
    rw [← String.ofList_toList (s := s), h, String.ofList_toList]
  by_cases h1 : w.description = "" <;> by_cases h2 : w'.description = ""
  · rw [if_pos h1, if_pos h2, List.append_nil, List.append_nil] at hh
    exact ⟨C39_injective hw hw' (inj hh), by rw [h1, h2]⟩
  · rw [if_pos h1, if_neg h2, List.append_nil] at hh
    exact absurd rfl (nosp hw ' ' (by rw [hh]; simp))
  · rw [if_neg h1, if_pos h2, List.append_nil] at hh
    exact absurd rfl (nosp hw' ' ' (by rw [← hh]; simp))
  · rw [if_neg h1, if_neg h2] at hh
    obtain ⟨e1, e2⟩ := key _ _ _ _ (nosp hw) (nosp hw') hh
    simp only [List.cons.injEq, true_and] at e2
    exact ⟨C39_injective hw hw' (inj e1), inj (List.append_cancel_right e2)⟩

/-! ## C40 -/

/-- **C40, order.** `compare_log_levels` compares verbosity: it is positive, zero or negative when the
    first level is more verbose than, the same as, or less verbose than the second. -/
theorem C40_order (a b : Level) :
    (0 < compareLogLevels a b ↔ Spec.verbosity b < Spec.verbosity a) ∧
    (compareLogLevels a b = 0 ↔ a = b) ∧
    (compareLogLevels a b < 0 ↔ Spec.verbosity a < Spec.verbosity b) ∧
    compareLogLevels a b = - compareLogLevels b a := by
  cases a <;> cases b <;> decide

/-- **C40, what is written.** A logger at level `a` writes everything a logger at level `b` does iff
    `compare_log_levels a b ≥ 0`. -/
theorem C40_writes (a b : Level) :
    (∀ m, b.writes m = true → a.writes m = true) ↔ 0 ≤ compareLogLevels a b := by
  constructor
  · intro h
    have h1 := h .trace
    have h2 := h .debug
    have h3 := h .info
    have h4 := h .warn
    have h5 := h .err
    have h6 := h .critical
    have h7 := h .off
    clear h
    revert h1 h2 h3 h4 h5 h6 h7
    cases a <;> cases b <;> decide
  · intro h m
    revert h
    cases a <;> cases b <;> cases m <;> decide

/-- **C40, names (partial).** These names select the levels they name, and any other the most verbose
    one.  Missing: three of the documented names are among the others, see `C40_refuted`. -/
theorem C40_names_partial :
    getLogLevel "off" = .off ∧ getLogLevel "critical" = .critical ∧ getLogLevel "err" = .err ∧
    getLogLevel "warn" = .warn ∧ getLogLevel "info" = .info ∧ getLogLevel "debug" = .debug ∧
    getLogLevel "trace" = .trace ∧
    ∀ s, s ∉ ["off", "critical", "err", "warn", "info", "debug"] → getLogLevel s = .trace := by
  refine ⟨by decide, by decide, by decide, by decide, by decide, by decide, by decide, ?_⟩
  intro s hs
  simp only [List.mem_cons, List.not_mem_nil, or_false, not_or] at hs
  obtain ⟨h1, h2, h3, h4, h5, h6⟩ := hs
  simp [getLogLevel, h1, h2, h3, h4, h5, h6]

/-- **C40 is false**: going through the documented names from the least to the most verbose, the levels
    they select do not get more verbose; `emerg`, `alert` and `notice` select the most verbose level. -/
theorem C40_refuted :
    ¬ (Spec.documented.Pairwise fun a b =>
        Spec.verbosity (getLogLevel a) ≤ Spec.verbosity (getLogLevel b)) ∧
    ∀ n ∈ ["emerg", "alert", "notice"], n ∈ Spec.documented ∧
      ∀ l, Spec.verbosity l ≤ Spec.verbosity (getLogLevel n) := by
  refine ⟨by decide, ?_⟩
  intro n hn
  refine ⟨by revert n; decide, ?_⟩
  intro l
  simp only [List.mem_cons, List.not_mem_nil, or_false] at hn
  rcases hn with rfl | rfl | rfl <;> cases l <;> decide

/-! ## C53 -/

/-- **C53.** The start of the broker is recorded in the log at every level but `off`, and then nothing
    is written. -/
theorem C53_header (l : Level) :
    (l ≠ .off → ∃ x ∈ logHeader l, x.2 = "--- Started ReCodEx broker ---" ∨
      x.2 = "    Started ReCodEx broker") ∧
    (l = .off → logHeader l = []) := by
  cases l <;> decide

example : logHeader .err = [(.critical, "--- Started ReCodEx broker ---")] ∧
    (logHeader .debug).length = 3 := by decide

/-! ## C50 -/

/-- **C50.** Given that the file can be read, the configuration is accepted, and the log and the sockets
    can be created: the broker starts with the single-queue manager if `queue_manager` is `single` or
    no scalar is given for it, with the multi-queue manager if it is `multi`, and refuses to start for
    any other text. -/
theorem C50_manager (c : Conv) (junk : Nat) (doc : Yaml) (b : BrokerConfig)
    (h : loadConfig c junk doc = .ok b) :
    (Spec.scalarAt ["queue_manager"] doc = none ∨ Spec.scalarAt ["queue_manager"] doc = some "single" →
      startBroker c junk (some doc) true true = .running .single b) ∧
    (Spec.scalarAt ["queue_manager"] doc = some "multi" →
      startBroker c junk (some doc) true true = .running .multi b) ∧
    (∀ s, Spec.scalarAt ["queue_manager"] doc = some s → s ≠ "single" → s ≠ "multi" →
      startBroker c junk (some doc) true true = .refused) := by
  obtain ⟨h1, h2⟩ := C37_values h
    ⟨["queue_manager"], Spec.asText, .text "single", fun b => .text b.queueManager⟩
    (by simp [Spec.items])
  have hq : ∀ s, Spec.scalarAt ["queue_manager"] doc = some s → b.queueManager = s := by
    intro s hs
    have := h2 s hs
    simpa [Spec.asText] using this.symm
  refine ⟨?_, ?_, ?_⟩
  · rintro (hn | hs)
    · have : b.queueManager = "single" := by simpa using h1 hn
      simp [startBroker, h, this, chooseManager]
    · simp [startBroker, h, hq _ hs, chooseManager]
  · intro hs
    simp [startBroker, h, hq _ hs, chooseManager]
  · intro s hs n1 n2
    simp [startBroker, h, hq _ hs, chooseManager, n1, n2]

/-- **C50, refusal.** The broker never starts without a readable file, an accepted configuration, a log
    and sockets. -/
theorem C50_refused (c : Conv) (junk : Nat) (file : Option Yaml) (logOk netOk : Bool) (m : Manager)
    (b : BrokerConfig) (h : startBroker c junk file logOk netOk = .running m b) :
    logOk = true ∧ netOk = true ∧ ∃ doc, file = some doc ∧ loadConfig c junk doc = .ok b := by
  unfold startBroker at h
  split at h
  · cases h
  · rename_i doc
    split at h
    · cases h
    · rename_i b' hb
      split at h
      · cases h
      · rename_i hl
        split at h
        · cases h
        · split at h
          · rename_i hn
            cases h
            exact ⟨by simpa using hl, hn, doc, rfl, hb⟩
          · cases h

example : startBroker conv0 7 (some doc0) true true =
      .running .single { clientPort := 9658, maxWorkerLiveness := 10,
                         notifier := ⟨"http://localhost", 8080, "", ""⟩ } ∧
    startBroker conv0 7 (some (ymap [("queue_manager", .scalar "multi")])) true true =
      .running .multi { queueManager := "multi", notifier := ⟨"", 7, "", ""⟩ } ∧
    startBroker conv0 7 (some (ymap [("queue_manager", .scalar "Multi")])) true true = .refused := by
  decide +kernel

end Broker
