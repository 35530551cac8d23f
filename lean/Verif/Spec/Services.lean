import Verif.Spec.Unasked

/-!
# Workers that can process the same requests
-/

namespace Broker.Spec

/-- Some client asks for a worker with these header frames. -/
def RequestFrames (ms : List Msg) (fs : List String) : Prop :=
  ∃ i j rest, ⟨"clients", i, "eval" :: j :: rest⟩ ∈ ms ∧ fs = headerFrames rest

/-- Workers with these hardware groups and headers can process the same requests of the history. -/
def SameService (ms : List Msg) (g : String) (hs : List String) (g' : String) (hs' : List String) :
    Prop := ∀ fs, RequestFrames ms fs → (Capable g hs fs ↔ Capable g' hs' fs)

/-- Two messages to the broker that are the same except for the hardware group and the headers of a worker
    that introduces itself; it can process the same requests of the history `ms`. -/
inductive Reoffered (ms : List Msg) : Msg → Msg → Prop
  | other (m : Msg) (h : ¬ (m.key = "workers" ∧ m.data.head? = some "init")) : Reoffered ms m m
  | short (i : String) : Reoffered ms ⟨"workers", i, ["init"]⟩ ⟨"workers", i, ["init"]⟩
  | intro (i : String) {g g' : String} {hs hs' t e : List String} (hh : ∀ x ∈ hs, x ≠ "")
    (hh' : ∀ x ∈ hs', x ≠ "") (hn : Numeric hs) (hn' : Numeric hs')
    (h : SameService ms g hs g' hs') (ht : Details t e) :
    Reoffered ms ⟨"workers", i, "init" :: g :: (hs ++ t)⟩ ⟨"workers", i, "init" :: g' :: (hs' ++ t)⟩

end Broker.Spec
