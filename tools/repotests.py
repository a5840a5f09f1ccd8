#!/usr/bin/env python3
"""Translates the tests of /repo and the example programs of READMECHN.md into
lean/Verif/RepoTest.lean, where they are run on the model. Only reads /repo."""
import re, os, ast
REPO = "/repo"
OUT = os.path.join(os.path.dirname(os.path.abspath(__file__)), "..", "lean", "Verif", "RepoTest.lean")
F = 400  # fuel of the loops

TOK = re.compile(r'''\s+|//[^\n]*|(?P<str>"(?:\\.|[^"\\])*")|(?P<chr>'(?:\\.|[^'\\])')|(?P<num>\d+(?:\.\d+)?(?:[eE][+-]?\d+)?)|(?P<id>[A-Za-z_][A-Za-z_0-9]*)|(?P<op>==|!=|&&|->|[-+*&(){}\[\],;=<>:!])''')

def unquote(s):
    """The bytes of a C string literal."""
    out, i, s = bytearray(), 1, s
    while i < len(s) - 1:
        c = s[i]
        if c != '\\':
            out += c.encode(); i += 1; continue
        d = s[i+1]
        if d == 'x':
            m = re.match(r'[0-9a-fA-F]+', s[i+2:]); out.append(int(m.group(), 16)); i += 2 + len(m.group())
        elif d == '0':
            out.append(0); i += 2
        else:
            out += {'n': b'\n', 't': b'\t', 'r': b'\r', 'b': b'\b', 'f': b'\f', '\\': b'\\', '"': b'"', "'": b"'", '/': b'/'}[d]; i += 2
    return bytes(out)

def toks(src):
    i, out = 0, []
    while i < len(src):
        m = TOK.match(src, i)
        if not m: raise SyntaxError("token: " + src[i:i+30])
        i = m.end()
        if m.lastgroup == 'str':
            b = unquote(m.group())
            if out and out[-1][0] == 'str': out[-1] = ('str', out[-1][1] + b)
            else: out.append(('str', b))
        elif m.lastgroup: out.append((m.lastgroup, m.group()))
    return out

def lit(b):
    """Bytes as a Lean term."""
    if all(0x20 <= c < 0x7f for c in b):
        return 'b!"' + b.decode().replace('\\', '\\\\').replace('"', '\\"') + '"'
    return '[' + ', '.join(str(c) for c in b) + ']'

class Skip(Exception): pass

# name -> (Lean function, kinds of arguments, kind of result)
# v handle, c text, n number, l out parameter for a length, d double, b bool, A allocator
API = {
 'Parse': ('parse', 'vc', 'bool'), 'ParseFast': ('parseFast', 'vc', 'bool'), 'ParseLen': ('parseLen', 'vcn', 'bool'),
 'Stringify': ('stringify F', 'v', 'sptr'),
 'GetStrFast': ('getStrFast', 'vl', 'clen'), 'GetNumFast': ('getNumFast', 'vl', 'clen'), 'GetKeyFast': ('getKeyFast', 'vl', 'clen'),
 'GetStr': ('getStr', 'v', 'cstr'), 'GetUnEscapeStr': ('getUnEscapeStr', 'v', 'cstr'), 'GetNumStr': ('getNumStr', 'v', 'cstr'),
 'GetKey': ('getKey', 'v', 'cstr'), 'GetUnEscapeKey': ('getUnEscapeKey', 'v', 'cstr'),
 'GetNum': ('getDouble asText', 'v', 'pdbl'), 'GetDouble': ('getDouble asText', 'v', 'pdbl'),
 'GetInt': ('getInt', 'v', 'pint'), 'GetLong': ('getLong', 'v', 'pint'), 'GetLongLong': ('getLongLong', 'v', 'pint'),
 'GetBool': ('getBool', 'v', 'pbool'), 'IsNull': ('isNull', 'v', 'bool'), 'Type': ('getType', 'v', 'ptype'),
 'ObjGet': ('objGet F', 'vc', 'val'), 'ObjGetLen': ('objGetLen F', 'vcn', 'val'), 'ArrayGet': ('arrayGet F', 'vn', 'val'),
 'Begin': ('begin_', 'v', 'val'), 'Next': ('next_', 'v', 'val'), 'Copy': ('copy F', 'v', 'val'), 'Move': ('move', 'v', 'bool'),
 'zj_SizeOf': ('sizeOf', 'v', 'nat'), 'Size': ('sizeOf', 'v', 'nat'),
 'SetNull': ('setNull', 'v', 'unit'), 'SetBool': ('setBool', 'vb', 'unit'), 'SetArray': ('setArray', 'v', 'unit'), 'SetObj': ('setObj', 'v', 'unit'),
 'SetNumStrFast': ('setNumStrFast', 'vc', 'bool'), 'SetNumStr': ('setNumStr', 'vc', 'bool'),
 'SetNumStrLenFast': ('setNumStrLenFast', 'vcn', 'bool'), 'SetNumStrLen': ('setNumStrLen', 'vcn', 'bool'),
 'SetNum': ('setDouble asText', 'vd', 'bool'), 'SetDouble': ('setDouble asText', 'vd', 'bool'),
 'SetInt': ('setInt', 'vi', 'bool'), 'SetLong': ('setLong', 'vi', 'bool'), 'SetLongLong': ('setLongLong', 'vi', 'bool'),
 'SetStrFast': ('setStrFast', 'vc', 'bool'), 'SetStr': ('setStr', 'vc', 'bool'), 'SetStrEscape': ('setStrEscape', 'vc', 'bool'),
 'SetStrLenFast': ('setStrLenFast', 'vcn', 'bool'), 'SetStrLen': ('setStrLen', 'vcn', 'bool'), 'SetStrLenEscape': ('setStrLenEscape', 'vcn', 'bool'),
 'SetKeyFast': ('setKeyFast', 'vc', 'bool'), 'SetKey': ('setKeyC', 'vc', 'bool'), 'SetKeyEscape': ('setKeyEscape', 'vc', 'bool'),
 'SetKeyLenFast': ('setKeyLenFast', 'vcn', 'bool'), 'SetKeyLen': ('setKeyLenC', 'vcn', 'bool'), 'SetKeyLenEscape': ('setKeyLenEscape', 'vcn', 'bool'),
 'Set': ('set F', 'vv', 'bool'), 'SetFast': ('setFast F', 'vv', 'bool'),
 'ObjAdd': ('objAdd F', 'vv', 'bool'), 'ObjAddFast': ('objAddFast', 'vv', 'bool'),
 'ArrayAdd': ('arrayAdd F', 'vv', 'bool'), 'ArrayAddFast': ('arrayAddFast', 'vv', 'bool'),
 'ArrayDel': ('arrayDel F', 'vn', 'bool'), 'ObjDel': ('objDel F', 'vc', 'bool'),
 # inside of the library: s text, i index (in and out)
 'zj_peek': ('peek', 'si', 'byte*'),
 **{k: ('consume', 'Bsi', 'bool*') for k in ('zj_consume', 'zj_likelyConsume', 'zj_unLikelyConsume')},
 **{k: ('peekAndConsume', 'Bsi', 'bool*') for k in ('zj_likelyPeekAndConsume', 'zj_unLikelyPeekAndConsume')},
 'zj_consumeTrue': ('consumeTrue', 'Si', 'bool*'), 'zj_consumeFalse': ('consumeFalse', 'Si', 'bool*'), 'zj_consumeNull': ('consumeNull', 'Si', 'bool*'),
 'zj_consumeStr': ('consumeStr', 'si', 'bool*'), 'zj_consumeHex': ('consumeHex', 'six', 'bool**'),
 'zj_consumeNum': ('consumeNum', 'si', 'opt'), 'zj_checkStr': ('checkStr', 'so', 'opt'), 'zj_checkNum': ('checkNum', 'so', 'opt'),
}
CONST = {'zj_strTrue': b'true', 'zj_strFalse': b'false', 'zj_strNull': b'null'}
TYPES = {'JSONType' + k: '.' + k.lower() for k in ('Null', 'Number', 'Array', 'Object', 'String', 'Bool')}

class Tr:
    """Straight-line C to a `do` block. Variables are single assignment by shadowing."""
    def __init__(self, t):
        self.t, self.i, self.out, self.n, self.env = t, 0, [], 0, {'A': 'alloc'}
    def peek(self, k=0): return self.t[self.i + k] if self.i + k < len(self.t) else (None, None)
    def take(self, v=None):
        x = self.peek()
        if v is not None and x[1] != v: raise SyntaxError(f"expected {v}, found {self.t[self.i:self.i+8]}")
        self.i += 1
        return x
    def tmp(self):
        self.n += 1
        return f"t{self.n}"
    def emit(self, s): self.out.append(s)

    # expressions: (kind, Lean term)
    def prim(self):
        k, x = self.take()
        if k == 'str': return ('lit', x)
        if k == 'chr': return ('byte', str(unquote(x)[0]))
        if k == 'num': return ('num', x)
        if x == '-':
            return ('num', '-' + self.take()[1])
        if x == '*':
            kind, e = self.prim()
            return ('*' + kind, e)
        if x == '&':
            return ('ref', self.take()[1])
        if x == '(':
            e = self.expr(); self.take(')'); return e
        if k == 'id':
            if x in ('true', 'True'): return ('bool', 'true')
            if x in ('false', 'False'): return ('bool', 'false')
            if x in TYPES: return ('type', TYPES[x])
            if self.peek()[1] == '(':
                return self.call(x)
            if x in CONST: return ('lit', CONST[x])
            if x in self.env: return (self.env[x], x)
        raise Skip(f"expression {x}")
    def expr(self):
        a = self.prim()
        if self.peek()[1] in ('==', '!='):
            op = self.take()[1]
            b = self.prim()
            e = self.compare(a, b)
            return ('bool', e if op == '==' else f'!({e})')
        return a
    def bytes_(self, a):
        """A text as a list of bytes."""
        if a[0] == 'bytes': return a[1]
        if a[0] == 'lit': return lit(a[1])
        raise Skip(f"bytes {a}")
    def compare(self, a, b):
        if a[0] == 'bytes': return f'decide ({a[1]} = {self.bytes_(b)})'
        if a[0] in ('val', 'cstr', 'pdbl', 'pbool', 'pint', 'ptype') and b == ('num', '0'): return f'{a[1]}.isNone'
        if a[0] == '*pbool': return f'decide ({a[1]} = some {b[1]})'
        if a[0] == '*ptype': return f'decide ({a[1]} = some {b[1]})'
        if a[0] == '*pdbl': return f'decide ({a[1]} = some {lit(b[1].encode())})'
        if a[0] == '*pint': return f'decide ({a[1]} = some {b[1]})'
        if a[0] in ('bool', 'nat', 'byte', 'num'): return f'decide ({a[1]} = {b[1]})'
        raise Skip(f"compare {a} {b}")
    def call(self, f):
        self.take('(')
        args = []
        while self.peek()[1] != ')':
            args.append(self.expr())
            if self.peek()[1] == ',': self.take()
        self.take(')')
        if f == 'string':
            if args[0][0] == 'lit': return ('bytes', lit(args[0][1].split(b'\0')[0]))
            if args[0][0] == 'sptr' or args[0][0] == 'cstr':
                r = self.tmp()
                if len(args) == 1:
                    self.emit(f'let {r} ← text {args[0][1]}')
                else:
                    self.emit(f'let {r} ← textN {args[0][1]} {args[1][1]}')
                return ('bytes', r)
            raise Skip("string")
        if f == 'strlen':
            if args[0][0] == 'cstr':
                r = self.tmp(); self.emit(f'let {r} ← text {args[0][1]}')
                return ('nat', f'{r}.length')
            if args[0][0] == 'lit': return ('nat', str(len(args[0][1])))
            if args[0][0] == 's': return ('nat', f'({args[0][1]}.length - 1)')
        if f in ('NewValue', 'zj_NewValue'):
            r = self.tmp(); self.emit(f'let {r} ← newValue A')
            return ('val', f'(some {r})')
        if f not in API: raise Skip(f)
        fn, kinds, res = API[f]
        ps, outs, ln = [], [], None
        for k, a in zip(kinds, args):
            if k == 'v':
                if a[0] != 'val': raise Skip(f"handle {a}")
                r = self.tmp(); self.emit(f'let {r} ← deref {a[1]}'); ps.append(r)
            elif k == 'c':
                if a[0] == 'lit':
                    r = self.tmp(); self.emit(f'let {r} ← callerText ({lit(a[1])} ++ [0])'); ps.append(r)
                elif a[0] == 'cstr':
                    r = self.tmp(); self.emit(f'let {r} ← pointer {a[1]}'); ps.append(r)
                else: raise Skip(f"text {a}")
            elif k in 'nb': ps.append(a[1])
            elif k == 'i' and a[0] != 'ref': ps.append(f'({a[1]})')
            elif k == 'd': ps.append(lit(a[1].encode()))
            elif k == 'l': ln = a[1]
            elif k == 'B': ps.append(a[1])
            elif k in 'sS':
                e = f'({lit(a[1])} ++ [0])' if a[0] == 'lit' else a[1]
                ps.append(e)
                if k == 'S': ps.append(f'{e}.length')
            elif k in 'ix': ps.append(a[1]); outs.append(a[1])
            elif k == 'o': outs.append(a[1])
        app = ' '.join([fn] + ps)
        if res == 'unit':
            self.emit(app); return ('unit', '()')
        r = self.tmp()
        if res == 'opt':
            self.emit(f'let {r} ← lift ({app})')
            self.emit(f'let {outs[0]} := {r}.getD {outs[0]}')
            return ('bool', f'{r}.isSome')
        if res.endswith('*'):
            self.emit(f'let ({r}, {", ".join(outs)}) ← lift ({app})')
            return (res.rstrip('*'), r)
        self.emit(f'let {r} ← {app}')
        if res == 'sptr': return ('cstr', f'(some {r})')
        if res == 'clen':
            self.emit(f'let {ln} := ({r}.map (·.2)).getD {ln}')
            return ('cstr', f'({r}.map (·.1))')
        return (res, r)

    def assign(self, name, a, typ=None):
        k, e = a
        if typ == 'bytes' or (k == 'lit' and self.env.get(name) == 's'):
            self.env[name] = 's'; self.emit(f'let {name} : Bytes := {lit(e)} ++ [0]'); return
        if k == 'lit':
            r = self.tmp(); self.emit(f'let {r} ← callerText ({lit(e)} ++ [0])')
            k, e = 'cstr', f'(some {r})'
        if k == 'num':
            if '.' in e: raise Skip('a double')
            k = 'int' if '-' in e else 'nat'
        self.env[name] = k
        ann = {'cstr': ' : Option SPtr', 'nat': ' : Nat', 'int': ' : Int', 'val': ' : Option Addr'}.get(k, '')
        self.emit(f'let {name}{ann} := {e}')

    def stmt(self, inner=False):
        k, x = self.peek()
        if x == 'CheckRet':
            self.take(); self.take('('); self.take('__func__'); self.take(','); self.take('__LINE__'); self.take(',')
            if self.peek()[1] == 'AllocMemoryCount':
                while self.take()[1] != ';': pass
                return
            e = self.expr()
            if self.peek()[1] == '==':      # string(a) == string(b) is handled in expr
                raise Skip("chain")
            self.take(')'); self.take(';')
            self.emit(f'check ({e[1]})')
            return
        if x in ('ReleaseAllocator', 'zj_ReleaseAllocator'):
            while self.take()[1] != ';': pass
            self.emit('releaseAllocator A'); return
        if x == 'printf':
            self.take(); self.take('('); fmt = self.take()[1]; args = []
            while self.peek()[1] == ',':
                self.take(); args.append(self.expr())
            self.take(')'); self.take(';')
            parts = fmt.split(b'%')
            if len(parts) != len(args) + 1: raise Skip("printf")
            es = [lit(parts[0])] if parts[0] else []
            for a, p in zip(args, parts[1:]):
                m = re.match(rb'(s|d|u|ld|lld|\.17g|\.\*s)', p)
                if not m: raise Skip("printf")
                if a[0] == 'cstr':
                    r = self.tmp(); self.emit(f'let {r} ← text {a[1]}'); es.append(r)
                elif a[0] in ('nat',): es.append(f'decNat {a[1]}')
                elif a[0] in ('bool',): es.append(f'(if {a[1]} then b!"1" else b!"0")')
                elif a[0] == '*pint': es.append(f'(fmtInt ({a[1]}.getD 0))')
                elif a[0] == '*pdbl': raise Skip('prints a double')
                elif a[0] == '*pbool': es.append(f'(if {a[1]} = some true then b!"1" else b!"0")')
                elif a[0] == '*ptype': es.append(f'(typeNo {a[1]})')
                else: raise Skip(f"printf {a}")
                rest = p[m.end():]
                if rest: es.append(lit(rest))
            self.emit(f'let out : Bytes := out ++ {" ++ ".join(es)}')
            return
        if x == 'if':   # if (cond) { ... }: the branch is not taken in these programs, which is checked
            self.take(); self.take('('); e = self.expr(); self.take(')')
            depth, taken = 0, None
            start = self.i
            if self.peek()[1] == '{':
                while True:
                    t = self.take()[1]
                    depth += (t == '{') - (t == '}')
                    if depth == 0: break
            else:
                while self.take()[1] != ';': pass
            body = [t[1] for t in self.t[start:self.i]]
            if 'return' in body or b'Fail' in b''.join(t[1] for t in self.t[start:self.i] if t[0] == 'str'):
                self.emit(f'check (!({e[1]}))'); return
            inner = [t for t in self.t[start:self.i]]
            if inner and inner[0][1] == '{': inner = inner[1:-1]
            self.emit(f'check ({e[1]})')
            self.t = self.t[:self.i] + inner + self.t[self.i:]
            return
        if x == 'return':
            while self.take()[1] != ';': pass
            return
        # declarations
        typ = []
        while self.peek()[0] == 'id' and (self.peek()[1] in ('const', 'bool', 'char', 'double', 'int', 'long', 'Value', 'Allocator', 'zj_Size', 'Size', 'SIZE', 'BOOL', 'JSONType', 'zj_Allocator', 'struct', 'zzz_SIZE', 'zj_SIZE')) or (typ and self.peek()[1] == '*'):
            typ.append(self.take()[1])
        if typ:
            name = self.take()[1]
            if self.peek()[1] == '[':
                self.take(); 
                while self.take()[1] != ']': pass
                typ.append('[]')
            if self.peek()[1] == ';':
                self.take()
                if 'Size' in ''.join(typ) or 'SIZE' in ''.join(typ): self.env[name] = 'nat'; self.emit(f'let {name} : Nat := 0')
                return
            self.take('=')
            if 'Allocator' in typ or 'zj_Allocator' in typ:
                while self.take()[1] != ';': pass
                self.emit('let A ← newAllocator'); return
            a = self.expr(); self.take(';')
            self.assign(name, a, 'bytes' if (a[0] == 'lit' and self.pure) else None)
            return
        if k == 'id' and self.peek(1)[1] == '=':
            name = self.take()[1]; self.take('=')
            a = self.expr(); self.take(';')
            self.assign(name, a); return
        e = self.expr()
        self.take(';')
        if e[0] == 'bool' or e[0] == 'nat': pass
    def run(self, pure=False):
        self.pure = pure
        while self.i < len(self.t): self.stmt()
        return self.out

def function(src, name):
    m = re.search(r'void ' + name + r'\(\) \{\n(.*?)\n\}\n', src, re.S)
    line = src[:m.start()].count('\n') + 1
    return m.group(1), line, line + m.group(0).count('\n') - 1

def clean(out):
    """Unused temporaries are fine in Lean, but shorter without."""
    return out

def lean_test(doc, body, expect='.ok ()', ret='()', typ='Unit'):
    s = '-- ' + doc + '\n#guard ((do\n'
    for l in body: s += '    ' + l + '\n'
    return s + f'    return {ret} : M {typ}) (St.init fun _ => 3)).out = {expect}\n\n'

def string(b):
    """Bytes as a Lean string (for texts that are UTF-8)."""
    return '"' + ''.join(c if c == ' ' or c.isprintable() and c not in '\\"' else '\\' + c if c in '\\"' else {'\n': '\\n', '\t': '\\t', '\r': '\\r'}.get(c, '\\x%02x' % ord(c) if ord(c) < 128 else '\\u%04x' % ord(c)) for c in b.decode()) + '"'

def manual():
    """The example programs of READMECHN.md with the outputs printed there."""
    L = open(REPO + '/READMECHN.md', encoding='utf-8').read().split('\n')
    i = 0
    while i < len(L):
        if L[i].startswith('```c'):
            j = i + 1
            while not L[j].startswith('```'): j += 1
            code = '\n'.join(L[i+1:j])
            if 'int main()' in code:
                k = j + 1
                while k < len(L) and not L[k].strip(): k += 1
                if k < len(L) and L[k].startswith('输出如下'):
                    k += 1; out = []
                    while not (L[k].startswith('#') or L[k].startswith('```') or L[k].startswith('>')): out.append(L[k]); k += 1
                    yield i + 2, j, code, '\n'.join(x for x in out if x.strip())
            i = j
        i += 1

HEAD = '''import Verif.PropParse
import Verif.PropNum
import Verif.Readme
import Verif.HistGet
import Verif.PropAlloc

/-!
Tests of the model: the unit tests of the repository (test/function/function_test.cpp, test/conformance) and
the example programs of its manual (READMECHN.md), run on the model by the
Lean interpreter. They say nothing about all inputs, and no property rests on them; they show that the model gives the results that the authors of the code expect of it.

This file is written by tools/repotests.py. A failed check is `timeout` here. Doubles are represented by
their texts (`asText`). The blocks of memory have three bytes to spare (see C05).
-/

set_option linter.unusedVariables false

namespace ZJ.RepoTest

local instance : Alloc.Knobs := .default
def env : Alloc.Env := Alloc.bump
def F : Nat := 400
def asText : FP Bytes := ⟨id, id⟩
def check (b : Bool) : M Unit := if b then pure () else fun _ => .timeout
def pointer : Option SPtr → M SPtr
  | some p => pure p
  | none => fail .nullDeref
/-- The bytes up to the NUL. -/
def text (p : Option SPtr) : M Bytes := do return (← readC (some (← pointer p))).getD []
def textN (p : Option SPtr) (n : Nat) : M Bytes := do readN (← pointer p) n
def typeNo : Option JType → Bytes
  | some .bool => b!"1" | some .array => b!"2" | some .object => b!"3" | some .string => b!"4" | some .null => b!"5" | some .number => b!"6"
  | none => []

'''

LOOPS = r"""-- function_test.cpp:10-19 `MemoryTest`: as many `free` as `malloc`
#guard (do
    let (a, m) ← Alloc.newAllocator env Alloc.Mem.init
    let m ← (List.range 4096).foldlM (fun m i => do return (← Alloc.alloc env 99 m a (i + 1)).2) m
    let m ← Alloc.release 99 m a
    return m.calls - m.frees : Res Nat) = .ok 0

-- function_test.cpp:20-43 `StringTest` (`sizeof(str)` is that of a pointer, 8)
#guard (List.range 8).all fun i => (do
    let (a, m) ← Alloc.newAllocator env Alloc.Mem.init
    let (z, m) ← Alloc.newString env 99 m a 1024
    let m ← Alloc.appendStr env 99 m z (b!"1234567890abcdef".take i)
    let m ← Alloc.appendChar env 99 m z 0
    let s ← Alloc.rdStr m z
    Alloc.peek m s.data (i + 1) : Res Bytes) = .ok (b!"1234567890abcdef".take i ++ [0])
#guard (List.range 8).all fun i => (do
    let (a, m) ← Alloc.newAllocator env Alloc.Mem.init
    let (z, m) ← Alloc.newString env 99 m a 1024
    let m ← (b!"1234567890abcdef".take i).foldlM (fun m c => Alloc.appendChar env 99 m z c) m
    let m ← Alloc.appendChar env 99 m z 0
    let s ← Alloc.rdStr m z
    Alloc.peek m s.data (i + 1) : Res Bytes) = .ok (b!"1234567890abcdef".take i ++ [0])

-- function_test.cpp:44-53 `SkinTest`
#guard ((b!"abc" ++ [9, 10, 13] ++ b!" d" ++ [0]).filter skin).length = 4

-- function_test.cpp:201-213 `HexCodePointTest`
#guard (b!"0123456789").map hexCodePoint = [0, 1, 2, 3, 4, 5, 6, 7, 8, 9]
#guard (b!"abcdefghij").map hexCodePoint = [10, 11, 12, 13, 14, 15, 16, 16, 16, 16]

-- function_test.cpp:481-536 `EscapeStrTest`, the text shortened
#guard (escapeStr ("极其朴素的代码".toUTF8.toList ++ [0])).bind (fun r => .ok r.2) = .ok ("极其朴素的代码".toUTF8.toList ++ [0])
#guard (escapeStr ("极\r\t \n".toUTF8.toList ++ [8] ++ b!" " ++ [12] ++ b!" \\ \"" ++ [0])).bind (fun r => .ok r.2) =
    .ok ("极\\r\\t \\n\\b \\f \\\\ \\\"".toUTF8.toList ++ [0])

-- function_test.cpp:802-818 `BeginAndNextTest`
#guard ((do
    let A ← newAllocator
    let v ← newValue A
    let p ← callerText (b!"[true,false,null,[null,false,[],true],[\"\",123,\"str\"],null]" ++ [0])
    check (← parseLen v p 58)
    let mut next ← begin_ v
    let mut count := 0
    for _ in List.range 99 do
      match next with
      | some n =>
        count := count + 1
        next ← next_ n
      | none => pure ()
    check (decide (count = (← sizeOf v))) : M Unit) (St.init fun _ => 3)).out = .ok ()

-- function_test.cpp:1304-1315 `GetSetTest`
#guard ((readmeMain F b!"[{\"key\":true},false,{\"key1\":true},[null,false,[],true],[\"\",123,\"str\"],null]") (St.init fun _ => 3)).out =
    .ok (some b!"[{\"key\":true},false,{\"key1\":true},[null,false,[],true],[\"\",123,\"str\"],null]")

"""

FILES = r"""/-- conformance_test.cpp:7-35 `JSONCheckerTest`, one file -/
def accepts (s : String) : Res Bool := ((do
    let A ← newAllocator
    let v ← newValue A
    let p ← callerText (s.toUTF8.toList ++ [0])
    parseFast v p : M Bool) (St.init fun _ => 3)).out

/-- conformance_test.cpp:36-57 `RoundTripTest` and function_test.cpp:1316-1346 `GetSetTest1`, one file -/
def comesBack (s : String) : Res Bool := ((do
    let A ← newAllocator
    let v ← newValue A
    let p ← callerText (s.toUTF8.toList ++ [0])
    check (← parseFast v p)
    let fuel := 4 * s.length + 10
    let r ← text (some (← stringify fuel v))
    check (decide (r = s.toUTF8.toList))
    let vv ← deref (← copy fuel v)
    let r ← text (some (← stringify fuel vv))
    check (decide (r = s.toUTF8.toList))
    let vvv ← newValue A
    getAndSet fuel vv vvv
    let r ← text (some (← stringify fuel vvv))
    check (decide (r = s.toUTF8.toList))
    return true : M Bool) (St.init fun _ => 3)).out

/-- conformance_test.cpp:58-70 `StringTestOne` -/
def unescapes (s e : Bytes) : Res Bool := ((do
    let A ← newAllocator
    let v ← newValue A
    let p ← callerText (s ++ [0])
    check (← parse v p)
    let vv ← deref (← arrayGet F v 0)
    let r ← text (← getUnEscapeStr vv)
    return decide (r = e) : M Bool) (St.init fun _ => 3)).out

"""

def files():
    o, skipped = [FILES], []
    d = REPO + '/test/conformance/data/'
    for want, n, pre in (('false', 33, 'fail'), ('true', 5, 'pass')):
        for i in range(1, n + 1):
            b = open(f'{d}jsonchecker/{pre}{i}.json', 'rb').read()
            try:
                o.append(f'-- {pre}{i}.json\n#guard accepts {string(b)} = .ok {want}\n')
            except UnicodeDecodeError: skipped.append(f'{pre}{i}')
    for i in range(1, 38):
        b = open(f'{d}roundtrip/roundtrip{i:02}.json', 'rb').read()
        if len(b) > 1500: skipped.append(f'roundtrip{i:02} ({len(b)} bytes)'); continue
        o.append(f'-- roundtrip{i:02}.json\n#guard comesBack {string(b)} = .ok true\n')
    src = open(REPO + '/test/conformance/conformance_test.cpp', encoding='utf-8').read()
    for m in re.finditer(r'^  TEST_STRING\(("(?:\\.|[^"\\])*"),\s*("(?:\\.|[^"\\])*")\)', src, re.M):
        line = src[:m.start()].count('\n') + 1
        o.append(f'-- conformance_test.cpp:{line}\n#guard unescapes {lit(unquote(m.group(1)))} {lit(unquote(m.group(2)).split(bytes(1))[0])} = .ok true\n')
    return ''.join(o), skipped

def main():
    src = open(REPO + '/test/function/function_test.cpp', encoding='utf-8').read()
    o, done, skipped = [HEAD], [], []
    o.append('/-! ### test/function/function_test.cpp -/\n\n')
    pure = ['PeekTest', 'ConsumeTest', 'PeekAndConsumeTest', 'ConsumetruefalseNullTest', 'ConsumeHexTest', 'ConsumeStrTest', 'CheckStrTest', 'ConsumeNumTest', 'CheckNumTest']
    for name in re.findall(r'^  (\w+Test1?)\(\);', src, re.M):
        body, a, b = function(src, name)
        doc = f'function_test.cpp:{a}-{b} `{name}`'
        try:
            if name == 'ParseAndStringifyTest':
                # its last call hands a text of 45 bytes to `ParseLen` with the length of another one, 58
                k = body.index('  Value *v1 = NewValue(A);')
                o.append(lean_test(doc + ', without the last three statements', Tr(toks(body[:k])).run()))
                o.append(lean_test(doc + ': the test itself reads outside the text `json1`, of which it gives a wrong length', Tr(toks(body)).run(), '.ub .oob'))
            else:
                o.append(lean_test(doc, Tr(toks(body)).run(name in pure)))
            done.append(name)
        except (Skip, SyntaxError, KeyError) as e:
            skipped.append((name, str(e)))
    o.append(LOOPS)
    o.append('/-! ### test/conformance -/\n\n')
    f, sk = files()
    o.append(f); skipped += sk
    o.append('\n/-! ### READMECHN.md -/\n\n')
    n = 0
    for a, b, code, out in manual():
        m = re.search(r'int main\(\)\s*\{(.*)\}\s*$', code, re.S)
        doc = f'READMECHN.md:{a}-{b}'
        try:
            t = Tr(toks(m.group(1)))
            body = ['let out : Bytes := []'] + t.run()
            o.append(lean_test(doc, body, f'.ok ({string(out.encode())}.toUTF8.toList ++ [10])', 'out', 'Bytes'))
            n += 1
        except (Skip, SyntaxError, KeyError) as e:
            skipped.append((doc, str(e)))
    open(OUT, 'w').write(''.join(o) + 'end ZJ.RepoTest\n')
    print('done', len(done), 'manual', n)
    for s in skipped: print('skipped', s)

main()
