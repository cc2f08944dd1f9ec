import Verif.Client.Model
/-!
# What a client promises
-/
namespace Verif.Client.Spec
open Verif.Data Verif.Client

/-- The number that decimal digits denote. -/
def decimal : List UInt8 → Nat := fun t => t.foldl (fun a b => 10 * a + (b.toNat - 48)) 0

/-- A non-empty list of decimal digits. -/
def Digits (t : Str) : Prop := t ≠ [] ∧ ∀ b ∈ t, 48 ≤ b.toNat ∧ b.toNat ≤ 57

/-- Letters, digits, dashes, underscores and dots. -/
def HostName (t : Str) : Prop :=
  t ≠ [] ∧ ∀ b ∈ t, (48 ≤ b.toNat ∧ b.toNat ≤ 57) ∨ (65 ≤ b.toNat ∧ b.toNat ≤ 90) ∨ (97 ≤ b.toNat ∧ b.toNat ≤ 122) ∨
    b = 45 ∨ b = 95 ∨ b = 46

/-- The names of protocols. -/
inductive ProtoText : Str → Proto → Prop
  | none : ProtoText [] .unknown
  | unknown : ProtoText (str "/?") .unknown
  | icmp : ProtoText (str "/icmp") .icmp
  | tcp : ProtoText (str "/tcp") .tcp
  | udp : ProtoText (str "/udp") .udp
  | icmp6 : ProtoText (str "/icmp6") .icmp6
  | sctp : ProtoText (str "/sctp") .sctp

/-- The text of an endpoint: a host, a port with or without a protocol, or both. -/
inductive EndpointText : Str → Endpoint → Prop
  | host {h : Str} : HostName h → EndpointText h ⟨h, none⟩
  | port {d q : Str} {t : Proto} : Digits d → d.length ≤ 5 → ProtoText q t →
      EndpointText (str ":" ++ d ++ q) ⟨[], some ⟨decimal d, t⟩⟩
  | both {h d q : Str} {t : Proto} : HostName h → Digits d → d.length ≤ 5 → ProtoText q t →
      EndpointText (h ++ str ":" ++ d ++ q) ⟨h, some ⟨decimal d, t⟩⟩

/-- A port number is one of 16 bits. -/
def Valid (e : Endpoint) : Prop := ∀ p, e.port = some p → p.number < 65536

/-- Where a query comes from: a file, the standard input, or the only argument. -/
inductive Source (stdin : Str) (files : Str → Option Str) : Option Str → List Str → Str → Prop
  | file {f q : Str} : f ≠ str "-" → files f = some q → Source stdin files (some f) [] q
  | dash : Source stdin files (some (str "-")) [] stdin
  | stdin : Source stdin files none [] stdin
  | argument {q : Str} : Source stdin files none [q] q

/-- The text of a 64-bit number, of at most twenty digits. -/
def IdText (t : Str) (i : Nat) : Prop := Digits t ∧ t.length ≤ 20 ∧ decimal t = i ∧ i < 2 ^ 64

/-- The events with an id. -/
def events {E : Type} (db : List (Nat × E)) (i : Nat) : List E := (db.filter fun p => p.1 == i).map (·.2)

/-- Whether a message reports that something went wrong. -/
def Bad : Msg → Prop
  | .timeout => True
  | .down _ (.failure _) => True
  | _ => False

end Verif.Client.Spec
