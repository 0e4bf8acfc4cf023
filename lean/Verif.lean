import Verif.Model.Basic
import Verif.Model.Wire
import Verif.Model.Circuit
import Verif.Model.Builder
import Verif.Model.Garble
import Verif.Model.Util
import Verif.Props.Garble
import Verif.Props.Circuit
import Verif.Props.Wire
import Verif.Props.Keys
import Verif.Props.Util
import Verif.Props.Builder
import Verif.Props.Schedule
import Verif.Props.WireFormat
import Verif.Props.BaseOT
import Verif.Props.ManyOT
import Verif.Props.GF128
import Verif.Props.BitMatrix
import Verif.Props.Apricot
import Verif.Props.Classic
import Verif.Props.Fpake
import Verif.Props.ManyFpake
import Verif.Props.Legacy
import Verif.Props.Channel
import Verif.Props.Broadcast
import Verif.Props.Impostor
import Verif.Props.Secrecy
import Verif.Props.Unchosen
import Verif.Props.Thief
import Verif.Props.Burglar
import Verif.Proof.Overflow
import Verif.Props.Overflow
import Verif.Props.OverflowMany
import Verif.Proof.Malformed
import Verif.Props.Malformed
import Verif.Spec.Memory
import Verif.Proof.Memory
import Verif.Proof.MemoryParties
import Verif.Proof.Sabotage
import Verif.Props.Memory
import Verif.Spec.Outcome
import Verif.Proof.Sizes
import Verif.Props.Sizes
import Verif.Model.Polynomial
import Verif.Props.Polynomial
import Verif.Model.Helpers
import Verif.Props.Helpers
import Verif.Props.Interleave
import Verif.Props.Crash
import Verif.Props.Evaluator
import Verif.Props.Threshold
import Verif.Props.Coin
import Verif.Spec.Mixed
import Verif.Proof.Mixed
import Verif.Props.Mixed
import Verif.Props.Builds
import Verif.Props.Session
import Verif.Props.WideOT
import Verif.Props.Traffic
import Verif.Props.Tables
import Verif.Props.HalfGates
import Verif.Props.Curious
import Verif.Props.CuriousLegacy
import Verif.Props.Encoded
import Verif.Props.Shape
import Verif.Props.Forge
import Verif.Props.Projections
import Verif.Props.Garbles
import Verif.Props.HalfForge
import Verif.Props.Logins
import Verif.Props.Difference
import Verif.Props.Blank
import Verif.Props.Plain
import Verif.Props.Served
import Verif.Props.Misfit
import Verif.Props.Separate
import Verif.Props.Canonical
import Verif.Props.Uneven
import Verif.Props.Uniform
import Verif.Props.Dialogue
import Verif.Props.Transparent
import Verif.Props.KeyOf
import Verif.Props.Fresh
import Verif.Props.FreshMany
import Verif.Props.Parts
import Verif.Props.Views
import Verif.Props.SameRole
import Verif.Props.Sower
import Verif.Props.Built
import Verif.Props.Reuse
import Verif.Props.Text
import Verif.Props.Entries
import Verif.Props.Asked
import Verif.Props.AskedLegacy
import Verif.Props.AskedFirst
import Verif.Props.AskedServer
