import Verif.Spec.Filter
/-
  A program with input and output, written with the library (Spec/Filter.lean): copies the lines of its input that contain a given text to its output.
```
in = strbuf_create_empty(0, NULL);  out = strbuf_create_empty(0, NULL);  needle = <constant 1>;
do {
    strbuf_grow(&in, in->size + 1);
    n = strbuf_append_read(&in, STDIN);
    if(n < 0) continue;
    if(n > 0) {
        src = strbuf_view(&in);
        for(;;) {
            line = strview_split_first_delim(&src, "\n", false);
            if(!strview_is_valid(src)) break;
            if(strview_contains(line, needle)) { strbuf_append(&out, line); strbuf_append_char(&out, '\n'); }
        }
        strbuf_assign(&in, line);
    } else {
        line = strbuf_view(&in);
        if(strview_contains(line, needle)) strbuf_append(&out, line);
    }
    while(out->size) strbuf_write(STDOUT, &out);
} while(n);
```
-/
namespace CStr

/-- A program given as a state machine. -/
structure Machine (S : Type) where
  init : S
  act : S → Option IAct
  upd : S → Answer → S

/-- The state after the answers. -/
def Machine.state {S : Type} (m : Machine S) (t : List Answer) : S := t.foldl m.upd m.init

/-- The program. -/
def Machine.program {S : Type} (m : Machine S) : IProgram := fun t => m.act (m.state t)

/-- The places in the program. `v` is the number of views obtained so far; `k` is `src`, `l` is `line`. -/
inductive Place where
  | empty0
  | empty1
  | needle
  | top (v : Nat)
  | grow (v : Nat) (n : Int)
  | read (v : Nat)
  | src (v : Nat)
  | split (v k : Nat)
  | valid (l k : Nat)
  | has (l k : Nat)
  | app (l k : Nat)
  | eol (l k : Nat)
  | keep (l : Nat)
  | rest (v : Nat)
  | lastHas (l : Nat)
  | lastApp (l : Nat)
  | flush (v : Nat) (last : Bool)
  | write (v : Nat) (last : Bool)
  | stop

/-- What is done there. -/
def Place.act : Place → Option IAct
  | .empty0 => some (.act (.cmd (.cmd (.createEmpty 0 0 none))))
  | .empty1 => some (.act (.cmd (.cmd (.createEmpty 1 0 none))))
  | .needle => some (.act (.cmd (.const 1)))
  | .top _ => some (.act (.ask (.bufSize 0)))
  | .grow _ n => some (.act (.cmd (.cmd (.op 0 (.grow (n + 1))))))
  | .read _ => some (.read 0)
  | .src _ => some (.act (.cmd (.view 0)))
  | .split _ k => some (.act (.cmd (.call (.splitFirst k (some 0) false))))
  | .valid _ k => some (.act (.ask (.valid k)))
  | .has l _ => some (.act (.ask (.contains l 0)))
  | .app l _ => some (.act (.cmd (.op 1 (.append l))))
  | .eol _ _ => some (.act (.cmd (.cmd (.op 1 (.appendChar 10)))))
  | .keep l => some (.act (.cmd (.op 0 (.assign l))))
  | .rest _ => some (.act (.cmd (.view 0)))
  | .lastHas l => some (.act (.ask (.contains l 0)))
  | .lastApp l => some (.act (.cmd (.op 1 (.append l))))
  | .flush _ _ => some (.act (.ask (.bufSize 1)))
  | .write _ _ => some (.write 1)
  | .stop => none

/-- Where it goes on. -/
def Place.next : Place → Answer → Place
  | .empty0, _ => .empty1
  | .empty1, _ => .needle
  | .needle, _ => .top 1
  | .top v, .int n => .grow v n
  | .grow v _, _ => .read v
  | .read v, .int n => if n < 0 then .top v else if n = 0 then .rest v else .src v
  | .src v, _ => .split (v + 1) v
  | .split v k, _ => .valid v k
  | .valid l k, .bool ok => if ok then .has l k else .keep l
  | .has l k, .bool yes => if yes then .app l k else .split (l + 1) k
  | .app l k, _ => .eol l k
  | .eol l k, _ => .split (l + 1) k
  | .keep l, _ => .flush (l + 1) false
  | .rest v, _ => .lastHas v
  | .lastHas l, .bool yes => if yes then .lastApp l else .flush (l + 1) true
  | .lastApp l, _ => .flush (l + 1) true
  | .flush v last, .int n => if n = 0 then (if last then .stop else .top v) else .write v last
  | .write v last, _ => .flush v last
  | p, _ => p

/-- The program; constant 0 is the delimiter, constant 1 the text to look for. -/
def grep : IProgram := Machine.program ⟨.empty0, Place.act, Place.next⟩

/-- Lines, each with its terminator. -/
def joinLines (ls : List (List Byte)) : List Byte := (ls.map (· ++ [10])).flatten

/-- The lines that contain `needle`. -/
def selected (needle : List Byte) (ls : List (List Byte)) : List (List Byte) := ls.filter fun l => decide (needle <:+: l)

end CStr
