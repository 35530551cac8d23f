import Verif.Spec.Protocol
import Verif.Spec.Transcript

/-!
# Requests that the same workers can process
-/

namespace Broker.Spec

/-- The message without the text of a refusal that lists requirements. -/
def hush : Msg → Msg
  | ⟨k, i, ["reject", t]⟩ =>
    if k = "clients" ∧ t.toList.take 9 = "No worker".toList then ⟨k, i, ["reject"]⟩
    else ⟨k, i, ["reject", t]⟩
  | m => m

/-- Answers to a message without the texts of refusals that list requirements. -/
def hushed (x : List Msg × Option Err) : List Msg × Option Err := (x.1.map hush, x.2)

/-- Whatever a worker declares, it can process a request with the header frames `fs` exactly if it
    can process one with the header frames `fs'`. -/
def SameMeans (fs fs' : List String) : Prop :=
  ∀ (hwgroup : String) (declared : List String),
    Capable hwgroup declared fs ↔ Capable hwgroup declared fs'

/-- Messages that are the same, or requests of one client for one job with the same data and with
    header frames that the same workers meet; metadata may differ. -/
def SameWish (m m' : Msg) : Prop :=
  m = m' ∨ ∃ i j fs fs', m = ⟨"clients", i, "eval" :: j :: fs⟩ ∧
    m' = ⟨"clients", i, "eval" :: j :: fs'⟩ ∧ "" ∈ fs ∧ "" ∈ fs' ∧
    payloadFrames fs = payloadFrames fs' ∧
    Numeric (headerFrames fs) ∧ Numeric (headerFrames fs') ∧
    SameMeans (headerFrames fs) (headerFrames fs')

/-- Some worker introduces itself with this hardware group and these header frames. -/
def Introduced (ms : List Msg) (hwgroup : String) (declared : List String) : Prop :=
  ∃ i rest, ⟨"workers", i, "init" :: hwgroup :: rest⟩ ∈ ms ∧ declared = headerFrames rest

/-- A worker that introduces itself can process a request with the header frames `fs` exactly if it can
    process one with the header frames `fs'`. -/
def SameMeansIn (ms : List Msg) (fs fs' : List String) : Prop :=
  ∀ (hwgroup : String) (declared : List String), Introduced ms hwgroup declared →
    (Capable hwgroup declared fs ↔ Capable hwgroup declared fs')

/-- As `SameWish`, with regard to the workers of a history. -/
def SameWishIn (ms : List Msg) (m m' : Msg) : Prop :=
  m = m' ∨ ∃ i j fs fs', m = ⟨"clients", i, "eval" :: j :: fs⟩ ∧
    m' = ⟨"clients", i, "eval" :: j :: fs'⟩ ∧ "" ∈ fs ∧ "" ∈ fs' ∧
    payloadFrames fs = payloadFrames fs' ∧
    Numeric (headerFrames fs) ∧ Numeric (headerFrames fs') ∧
    SameMeansIn ms (headerFrames fs) (headerFrames fs')

end Broker.Spec
