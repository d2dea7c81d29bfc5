import Verif.Model.Lsp
/-
What a language server has to do, after the LSP specification: which text a document has
after some notifications, and which position a place in a text has.
-/

namespace Kdl.Spec
open Lsp

/-! ### The current text of a document -/

/-- The notification is about the document and says what its text is, or that it is closed
(`none`). If a notification has several changes, they are made one after the other. -/
inductive Sets (uri : Str) : Notification → Option Str → Prop
  | opened (t : Str) : Sets uri (.didOpen uri t) (some t)
  | changed (ts : List Str) (t : Str) : Sets uri (.didChange uri (ts ++ [t])) (some t)
  | saved (t : Str) : Sets uri (.didSave uri (some t)) (some t)
  | closed : Sets uri (.didClose uri) none

/-- The text of the document after the notifications, if it is open: what the last of the
notifications that set it says. -/
inductive Current (uri : Str) : List Notification → Option Str → Prop
  | never {es : List Notification} (h : ∀ e ∈ es, ∀ t, ¬ Sets uri e t) : Current uri es none
  | last {es es' : List Notification} {e : Notification} {t : Option Str} (he : Sets uri e t)
      (h : ∀ e ∈ es', ∀ t, ¬ Sets uri e t) : Current uri (es ++ e :: es') t

/-- Every change consists of one text. -/
def SingleChanges (es : List Notification) : Prop := ∀ uri ts, Notification.didChange uri ts ∈ es → ∃ t, ts = [t]

/-! ### Positions -/

/-- The number of UTF-16 code units of a text. -/
def utf16Len : Str → Nat
  | [] => 0
  | c :: s => (if c.toNat < 0x10000 then 1 else 2) + utf16Len s

/-- The place between `p` and `q` in the text `p ++ q` is in line `l`, `k` code units from its
beginning; lines are ended by the characters `brk` and by CR LF. -/
inductive PlaceIn (brk : Char → Prop) : (p q : Str) → (l k : Nat) → Prop
  | here {p q : Str} (h : ∀ c ∈ p, ¬ brk c) : PlaceIn brk p q 0 (utf16Len p)
  | inside {p q : Str} (h : ∀ c ∈ p, ¬ brk c) : PlaceIn brk (p ++ ['\r']) ('\n' :: q) 0 (utf16Len p + 1)
  | crlf {a p q : Str} {l k : Nat} (h : ∀ c ∈ a, ¬ brk c) (hp : PlaceIn brk p q l k) :
      PlaceIn brk (a ++ '\r' :: '\n' :: p) q (l + 1) k
  | single {a p q : Str} {c : Char} {l k : Nat} (h : ∀ c ∈ a, ¬ brk c) (hc : brk c) (hn : c = '\r' → ∀ t, p ++ q ≠ '\n' :: t)
      (hp : PlaceIn brk p q l k) : PlaceIn brk (a ++ c :: p) q (l + 1) k

/-- Line ends of LSP: line feed, carriage return, and both together. -/
def LspBreak (c : Char) : Prop := c = '\n' ∨ c = '\r'

/-- The other characters that end lines in Unicode. -/
def OtherBreak (c : Char) : Prop :=
  c = Char.ofNat 0x0B ∨ c = Char.ofNat 0x0C ∨ c = Char.ofNat 0x85 ∨ c = Char.ofNat 0x2028 ∨ c = Char.ofNat 0x2029

/-- The LSP position of the place between `p` and `q`. -/
def LspPlace (p q : Str) (x : Position) : Prop := PlaceIn LspBreak p q x.line x.character

/-- The order of positions. -/
def Earlier (x y : Position) : Prop := x.line < y.line ∨ (x.line = y.line ∧ x.character < y.character)

end Kdl.Spec
