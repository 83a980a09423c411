#!/usr/bin/env python3
"""Runs the Lean model of rx/ on the tables of /repo/test/rxcompile_test.cpp and rxmatch_test.cpp and compares with the
expectations written there (the repository's own tests, read as text). Prints the differences. A test of the model, not a
proof. Usage: python3 tools/rx_conform.py"""
import re, subprocess, os
def cstrings(line):
    """the fields of one { ... } initialiser line; adjacent string literals are concatenated"""
    body = line[line.index('{')+1:line.rindex('}')]
    out, i, cur = [], 0, None
    while i < len(body):
        c = body[i]
        if c == '"':
            i += 1; s = b''
            while body[i] != '"':
                if body[i] == '\\':
                    i += 1; e = body[i]
                    if e == 'x':
                        m = re.match(r'[0-9A-Fa-f]+', body[i+1:]); s += bytes([int(m.group(),16) & 255]); i += len(m.group())
                    elif e == 'u':
                        s += chr(int(body[i+1:i+5],16)).encode(); i += 4
                    elif e in '01234567':
                        m = re.match(r'[0-7]{1,3}', body[i:]); s += bytes([int(m.group(),8)]); i += len(m.group())-1
                    else:
                        s += {'n':b'\n','t':b'\t','r':b'\r','b':b'\b','e':b'\x1b','f':b'\f'}.get(e, e.encode())
                else:
                    s += body[i].encode()
                i += 1
            cur = (cur or b'') + s
        elif c == ',':
            out.append(cur); cur = None
        elif not c.isspace():
            m = re.match(r'[-0-9]+', body[i:])
            if m: cur = int(m.group()); i += len(m.group())-1
        i += 1
    out.append(cur)
    return out
def rows(path):
    r, seen = [], False
    for l in open(path, encoding='utf-8'):
        if '_tests[] =' in l: seen = True
        if seen and l.startswith('};'): break
        if seen and re.match(r'\s*\{ "', l): r.append(cstrings(re.sub(r'\},\s*//.*', '},', l)))
    return r
def lst(bs): return '[' + ','.join(f'{b}' for b in bs) + ']'
def ucs(b): return lst([ord(c) for c in b.decode('utf-8')])
comp = rows('/repo/test/rxcompile_test.cpp'); mat = rows('/repo/test/rxmatch_test.cpp')
src = '''import Verif.Model.RxCompile
import Verif.Model.RxMatch
open Strpp Rx
def cfg : Cfg := ⟨fun f => match f with | .anyIsQuest | .zeroOrMoreAny => false | _ => true, fun _ => false⟩
def u (l : List Nat) : List UCS4 := l.map (BitVec.ofNat 32)
def fault : Fault → String | .ub => "ub" | .assertion => "assertion" | .fuel => "fuel"
def C (re : List Nat) (want : Option (List Nat)) : IO Unit :=
  match compile cfg (u re), want with
  | .ok (some b), some w => if (b.takeWhile (· != 0#8)).map (·.toNat) == w then pure () else IO.println s!"COMPILE {re} {b.map (·.toNat)}"
  | .ok none, none => pure ()
  | .ok _, _ => IO.println s!"COMPILE {re} wrong kind"
  | .error e, _ => IO.println s!"COMPILE {re} {fault e}"
def M (re t : List Nat) (off len : Int) : IO Unit :=
  match compile cfg (u re) with
  | .ok (some b) => match Prog.load b with
    | .ok P => match P.matchAfter 0 100000 (u t) 0 with
      | .ok r => if (r.succeeded && (r.offset : Int) == off && (r.length : Int) == len) || (!r.succeeded && off < 0) then pure ()
        else IO.println s!"MATCH {re} {t}: {r.succeeded} {r.offset} {r.length}"
      | .error e => IO.println s!"MATCH {re} {t} {fault e}"
    | .error e => IO.println s!"LOAD {re} {fault e}"
  | .ok none => IO.println s!"MATCH {re} does not compile"
  | .error e => IO.println s!"COMPILE {re} {fault e}"
def main : IO Unit := do
'''
for r in comp: src += f"  C {ucs(r[0])} {'none' if r[1] is None or r[1]==0 else '(some '+lst(r[1])+')'}\n"
n = 0
for r in mat:
    if isinstance(r[1], bytes): src += f"  M {ucs(r[0])} {ucs(r[1])} ({r[2]}) ({r[3]})\n"; n += 1
    else: src += f"  C {ucs(r[0])} none\n"
src += f'  IO.println "{len(comp)} compiler rows, {len(mat)} matcher rows"\n'
open('/tmp/RxConform.lean','w').write(src)
print(subprocess.run(['lake','env','lean','--run','/tmp/RxConform.lean'],cwd='/verif/lean',capture_output=True,text=True).stdout)
