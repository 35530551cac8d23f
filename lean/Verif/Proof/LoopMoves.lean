import Verif.Model.Loop

/-!
# Transitions of the reactor, one constructor for each kind
-/

namespace Broker.Reactor

variable {α : Type} [DecidableEq α] {S : Setup α}

/-- What an event does. -/
inductive Move (S : Setup α) : Ev α → St S → St S → Prop
  | arrive {s : St S} {k i : String} {d : List String} (hk : k ∈ S.wiring.order) (hd : d ≠ []) :
    Move S (.arrive k i d) s { s with inbox := Function.update s.inbox k (s.inbox k ++ [(i, d)]) }
  | poll {s : St S} {b c : Int} {ready : List (Option String)} (h1 : s.stack = [])
      (h2 : s.place = .poll)
      (h3 : ready = (S.wiring.order.filter (fun k => !(s.inbox k).isEmpty)).map some ++
        (if s.readable then [none] else [])) :
    Move S (.poll b c) s { s with place := .serve ready (elapsedMs b c) }
  | socket {s : St S} {x : Nat → Bool} {pick : Option α} {k i : String} {d : List String}
      {rest : List (String × List String)} {ks : List (Option String)} {el : Int}
      (h1 : s.stack = []) (h2 : s.place = .serve (some k :: ks) el)
      (h3 : s.inbox k = (i, d) :: rest) :
    Move S (.main x pick) s (St.process ⟨k, i, d⟩
      { s with place := .serve ks el, inbox := Function.update s.inbox k rest })
  | internal {s : St S} {x : Nat → Bool} {a : α} {fs : List String} {rest : List (List String)}
      {ks : List (Option String)} {el : Int} {m : Msg} {r : List (String × Bool)}
      (h1 : s.stack = []) (h2 : s.place = .serve (none :: ks) el)
      (h3 : (s.thr a).dealer.out = fs :: rest)
      (h4 : recvAsync (recvFrames (S.uid a :: fs)) = some (m, r)) :
    Move S (.main x (some a)) s (St.send m { s with
      place := .serve ks el
      thr := Function.update s.thr a
        { s.thr a with dealer := { (s.thr a).dealer with out := rest } }
      returned := Function.update s.returned a (s.returned a ++ [m]) })
  | timer {s : St S} {x : Nat → Bool} {pick : Option α} {el : Int} (h1 : s.stack = [])
      (h2 : s.place = .serve [] el) :
    Move S (.main x pick) s (St.process (timerMsg el) { s with place := .poll })
  | ret {s : St S} {x : Nat → Bool} {pick : Option α} {m : Msg} {st : List (Frame S)}
      (h1 : s.stack = .loop m [] :: st) :
    Move S (.main x pick) s { s with stack := st }
  | post {s : St S} {x : Nat → Bool} {pick : Option α} {m : Msg} {a : α} {as : List α}
      {st : List (Frame S)} (h1 : s.stack = .loop m (a :: as) :: st) (h2 : S.isAsync a = true) :
    Move S (.main x pick) s (St.post a m { s with stack := .loop m as :: st })
  | call {s : St S} {x : Nat → Bool} {pick : Option α} {m : Msg} {a : α} {as : List α}
      {st : List (Frame S)} (h1 : s.stack = .loop m (a :: as) :: st) (h2 : S.isAsync a = false) :
    Move S (.main x pick) s { s with
      stack := .body a ((S.obj a).onRequest x m (s.obj a)) :: .loop m as :: st
      calls := s.calls ++ [(a, m)]
      reentered := s.reentered || decide (a ∈ st.filterMap Frame.owner) }
  | done {s : St S} {x : Nat → Bool} {pick : Option α} {a : α} {v : (S.obj a).σ}
      {st : List (Frame S)} (h1 : s.stack = .body a (.done v) :: st) :
    Move S (.main x pick) s { s with obj := Function.update s.obj a v, stack := st }
  | throw {s : St S} {x : Nat → Bool} {pick : Option α} {a : α} {v : (S.obj a).σ}
      {st : List (Frame S)} (h1 : s.stack = .body a (.throw v) :: st) :
    Move S (.main x pick) s
      { s with obj := Function.update s.obj a v, stack := [], place := .halt }
  | respond {s : St S} {x : Nat → Bool} {pick : Option α} {a : α} {v : (S.obj a).σ} {m : Msg}
      {k : (S.obj a).σ → Prog (S.obj a).σ} {st : List (Frame S)}
      (h1 : s.stack = .body a (.respond v m k) :: st) :
    Move S (.main x pick) s
      (St.send m { s with obj := Function.update s.obj a v, stack := .wait a k :: st })
  | resume {s : St S} {x : Nat → Bool} {pick : Option α} {a : α}
      {k : (S.obj a).σ → Prog (S.obj a).σ} {st : List (Frame S)} (h1 : s.stack = .wait a k :: st) :
    Move S (.main x pick) s { s with stack := .body a (k (s.obj a)) :: st }
  | connect {s : St S} {a : α} (h1 : S.isAsync a = true) (h2 : (s.thr a).status = .starting) :
    Move S (.connect a) s
      { s with thr := Function.update s.thr a { s.thr a with status := .running } }
  | stop {s : St S} {a : α} {x : Nat → Bool} {fs : List String} {rest : List (List String)}
      {r : List (String × Bool)} (h1 : (s.thr a).status = .running) (h2 : (s.thr a).cur = none)
      (h3 : (s.thr a).pipe = fs :: rest) (h4 : threadTurn (recvFrames fs) = some (.stop, r)) :
    Move S (.take a x) s
      { s with thr := Function.update s.thr a { s.thr a with pipe := rest, status := .stopped } }
  | skip {s : St S} {a : α} {x : Nat → Bool} {fs : List String} {rest : List (List String)}
      {r : List (String × Bool)} (h1 : (s.thr a).status = .running) (h2 : (s.thr a).cur = none)
      (h3 : (s.thr a).pipe = fs :: rest) (h4 : threadTurn (recvFrames fs) = some (.skip, r)) :
    Move S (.take a x) s
      { s with thr := Function.update s.thr a { s.thr a with pipe := rest } }
  | take {s : St S} {a : α} {x : Nat → Bool} {fs : List String} {rest : List (List String)}
      {m : Msg} {r : List (String × Bool)} (h1 : (s.thr a).status = .running)
      (h2 : (s.thr a).cur = none) (h3 : (s.thr a).pipe = fs :: rest)
      (h4 : threadTurn (recvFrames fs) = some (.request m, r)) :
    Move S (.take a x) s { s with
      thr := Function.update s.thr a
        { s.thr a with pipe := rest, cur := some ((S.obj a).onRequest x m (s.obj a)) }
      taken := Function.update s.taken a (s.taken a ++ [m]) }
  | tdone {s : St S} {a : α} {v : (S.obj a).σ} (h1 : (s.thr a).cur = some (.done v)) :
    Move S (.thread a) s
      { s with obj := Function.update s.obj a v
               thr := Function.update s.thr a { s.thr a with cur := none } }
  | tthrow {s : St S} {a : α} {v : (S.obj a).σ} (h1 : (s.thr a).cur = some (.throw v)) :
    Move S (.thread a) s
      { s with obj := Function.update s.obj a v
               thr := Function.update s.thr a { s.thr a with cur := none, status := .crashed } }
  | reply {s : St S} {a : α} {v : (S.obj a).σ} {m : Msg} {k : (S.obj a).σ → Prog (S.obj a).σ}
      (h1 : (s.thr a).cur = some (.respond v m k)) :
    Move S (.thread a) s { s with
      obj := Function.update s.obj a v
      thr := Function.update s.thr a
        { s.thr a with cur := some (k v)
                       dealer := (responseFrames m).foldl Dealer.send (s.thr a).dealer }
      replied := Function.update s.replied a (s.replied a ++ [m]) }

theorem move_of_next {s s' : St S} {ev : Ev α} (h : s.next ev = some s') : Move S ev s s' := by
  cases ev with
  | arrive k i d =>
    simp only [St.next] at h
    split at h
    · rename_i hc; cases h; exact .arrive hc.1 hc.2
    · cases h
  | poll b c =>
    simp only [St.next, St.pollReturns] at h
    split at h
    · rename_i h1 h2; cases h; exact .poll h1 h2 rfl
    · cases h
  | main x pick =>
    simp only [St.next] at h
    split at h
    · rename_i h1
      simp only [St.inLoop] at h
      split at h
      · cases h
      · cases h
      · rename_i h2
        split at h
        · cases h
        · rename_i h3; cases h; exact .socket h1 h2 h3
      · rename_i h2
        split at h
        · cases h
        · split at h
          · cases h
          · rename_i h3
            simp only [Option.map_eq_some_iff] at h
            obtain ⟨⟨m, r⟩, h4, h5⟩ := h
            cases h5
            exact .internal h1 h2 h3 h4
      · rename_i h2; cases h; exact .timer h1 h2
    · simp only [St.inCall] at h
      split at h
      · cases h
      · rename_i h1; cases h; exact .ret h1
      · rename_i h1
        split at h
        · rename_i h2; cases h; exact .post h1 h2
        · rename_i h2; cases h; exact .call h1 (by simpa using h2)
      · rename_i h1; cases h; exact .done h1
      · rename_i h1; cases h; exact .throw h1
      · rename_i h1; cases h; exact .respond h1
      · rename_i h1; cases h; exact .resume h1
  | connect a =>
    simp only [St.next] at h
    split at h
    · rename_i hc; cases h; exact .connect hc.1 hc.2
    · cases h
  | take a x =>
    simp only [St.next, St.take] at h
    split at h
    · rename_i h1 h2 h3
      split at h
      · cases h
      · rename_i h4; cases h; exact .stop h1 h2 h3 h4
      · rename_i h4; cases h; exact .skip h1 h2 h3 h4
      · rename_i h4; cases h; exact .take h1 h2 h3 h4
    · cases h
  | thread a =>
    simp only [St.next, St.thread] at h
    split at h
    · cases h
    · rename_i h1; cases h; exact .tdone h1
    · rename_i h1; cases h; exact .tthrow h1
    · rename_i h1; cases h; exact .reply h1

end Broker.Reactor
