import Verif.Printer.Model
namespace Verif.Printer.Spec

/-- The text of a value; `none` if it has no text. -/
def text : {α : Type} → Printer α → α → Option (List Char)
  | _, .lit w, _ => some w
  | _, .any, c => some [c]
  | _, .str, s => some s
  | _, .seq p q, (x, y) => do return (← text p x) ++ (← text q y)
  | _, .before p q, x => do return (← text p ()) ++ (← text q x)
  | _, .after p q, x => do return (← text p x) ++ (← text q ())
  | _, .choice p _, .inl x => text p x
  | _, .choice _ q, .inr x => text q x
  | _, .either p q, _ => (text p ()).or (text q ())
  | _, .kleene p, xs => (xs.mapM (text p)).map List.flatten
  | _, .plus p, xs => if xs = [] then none else (xs.mapM (text p)).map List.flatten
  | _, .list p q, xs => match xs with
    | [] => some []
    | [x] => text p x
    | xs => do return (← text q ()).intercalate (← xs.mapM (text p))
  | _, .opt _, none => some []
  | _, .opt p, some x => text p x
  | _, .maybe p, x => some ((text p x).getD [])
  | _, .conj p, _ => (text p ()).map fun _ => []
  | _, .neg p, _ => if text p () = none then some [] else none
  | _, .guard g p, x => if g x then text p x else none
  | _, .act f p, x => text p (f x)

/-- Printers that never fail. -/
def total : {α : Type} → Printer α → Bool
  | _, .lit _ => true
  | _, .any => true
  | _, .str => true
  | _, .seq p q => total p && total q
  | _, .before p q => total p && total q
  | _, .after p q => total p && total q
  | _, .choice p q => total p && total q
  | _, .either p q => total p || total q
  | _, .kleene p => total p
  | _, .plus _ => false
  | _, .list p q => total p && total q
  | _, .opt p => total p
  | _, .maybe _ => true
  | _, .conj p => total p
  | _, .neg _ => false
  | _, .guard _ _ => false
  | _, .act _ p => total p

/-- Printers that never write anything. -/
def silent : {α : Type} → Printer α → Bool
  | _, .lit w => w.isEmpty
  | _, .any => false
  | _, .str => false
  | _, .seq p q => silent p && silent q
  | _, .before p q => silent p && silent q
  | _, .after p q => silent p && silent q
  | _, .choice p q => silent p && silent q
  | _, .either p q => silent p && silent q
  | _, .kleene p => silent p
  | _, .plus p => silent p
  | _, .list p q => silent p && silent q
  | _, .opt p => silent p
  | _, .maybe p => silent p
  | _, .conj p => silent p
  | _, .neg p => silent p
  | _, .guard _ p => silent p
  | _, .act _ p => silent p

/-- Printers that write nothing if they fail. -/
def clean : {α : Type} → Printer α → Bool
  | _, .lit _ => true
  | _, .any => true
  | _, .str => true
  | _, .seq p q => clean p && (total q || (silent p && clean q))
  | _, .before p q => clean p && (total q || (silent p && clean q))
  | _, .after p q => clean p && (total q || (silent p && clean q))
  | _, .choice p q => clean p && clean q
  | _, .either p q => clean p && clean q
  | _, .kleene p => total p
  | _, .plus p => total p
  | _, .list p q => total p && total q
  | _, .opt p => clean p
  | _, .maybe _ => true
  | _, .conj p => clean p
  | _, .neg p => silent p
  | _, .guard _ p => clean p
  | _, .act _ p => clean p

/-- Where a failure is not the end, nothing is written by what fails; `&` and `!` are about printers that write nothing. -/
def proper : {α : Type} → Printer α → Bool
  | _, .lit _ => true
  | _, .any => true
  | _, .str => true
  | _, .seq p q => proper p && proper q
  | _, .before p q => proper p && proper q
  | _, .after p q => proper p && proper q
  | _, .choice p q => proper p && proper q
  | _, .either p q => proper p && proper q && clean p
  | _, .kleene p => proper p
  | _, .plus p => proper p
  | _, .list p q => proper p && proper q
  | _, .opt p => proper p
  | _, .maybe p => proper p && clean p
  | _, .conj p => silent p
  | _, .neg p => silent p
  | _, .guard _ p => proper p
  | _, .act _ p => proper p

end Verif.Printer.Spec
