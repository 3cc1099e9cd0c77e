import Verif.Spec.Demo
import Verif.Model.World

/-!
# A concrete world for examples

Used in `example`s only; no theorem depends on it.
-/

namespace Sink

def demoErr (temp : Bool) : DnsErr := ⟨true, temp, b!"no such host", b!"lookup: no such host"⟩

/-- Table lookup. -/
def tbl {α : Type} (d : α) : List (Str × α) → Str → α
  | [], _ => d
  | (k, v) :: l, x => if x = k then v else tbl d l x

def demoWorld : World where
  lib := demoLib
  files _ := tbl (.notExist b!"no such file") [
    (b!"/bad", .data b!"evil.com\n@.evil.com\nspam@\n"), (b!"/empty", .data b!"# nothing here\n"),
    (b!"/noread", .readErr b!"input/output error")]
  lookupIP _ := tbl (.error (demoErr false)) [
    (b!"mx.example.com.", .ok [.v4 0xc0000201#32]), (b!"mail.example.com.", .ok [.v4 0xc0000202#32]),
    (b!"lan.example.com.", .ok [.v4 0xc0000203#32, .v4 0x0a000001#32]),
    (b!"slow.example.com.", .error (demoErr true)),
    (b!"4.3.2.1.sbl.example.", .ok [.v4 0x7f000002#32]), (b!"evil.com.dbl.example.", .ok [.v4 0x7f000002#32])]
  lookupMX _ := tbl (.error (demoErr false)) [
    (b!"example.com.", .ok [⟨b!"lan.example.com.", 5⟩, ⟨b!"mx.example.com.", 10⟩]),
    (b!"null.example.com.", .ok [⟨b!"mx.example.com.", 10⟩, ⟨b!".", 0⟩]),
    (b!"slowmx.example.com.", .ok [⟨b!"slow.example.com.", 10⟩, ⟨b!"lan.example.com.", 20⟩]),
    (b!"empty.example.com.", .ok [])]
  lookupAddr _ := tbl (.error (demoErr false)) [
    (b!"192.0.2.2", .ok [b!"www.example.com.", b!"mail.example.com.", b!"mx.example.com."])]
  lookupTXT _ := tbl (.error (demoErr false)) []
  ipStr _ := b!"?"
  mapOrder _ l := l
  mapOrder_perm _ l := .refl l

theorem demoWorld_static : demoWorld.Static :=
  ⟨fun _ _ => rfl, fun _ _ => rfl, fun _ _ => rfl, fun _ _ => rfl, fun _ _ => rfl⟩

end Sink
