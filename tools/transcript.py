#!/usr/bin/env python3
"""Compare straight-line code of the repository with its transcription in the model.

Both texts are read as sequences of assignments and turned into expression trees over the inputs (so names of temporaries
do not matter, the operations and their order of arguments do). Nothing is executed. The second part compares the
instructions of the `asm!` blocks one by one.

usage: transcript.py [repo] [lean dir]
"""
import re, sys

REPO = sys.argv[1] if len(sys.argv) > 1 else '/repo'
LEAN = sys.argv[2] if len(sys.argv) > 2 else '/verif/lean'

# ---------------------------------------------------------------- expressions
# A tree is a string (input or number) or a tuple (operator, arguments...).

TOK = re.compile(r'\s*(0x[0-9a-fA-F_]+|\d+|[A-Za-z_$][\w$\']*(?:::(?:<[^>]*>::)?[A-Za-z_]\w*|::<\w+>)*|==|&&|\|\||=>|:=|[-+*&|!()\[\]{}.,;:^⟨⟩=<>])')

def toks(s):
    out, i = [], 0
    s = s.strip()
    while i < len(s):
        m = TOK.match(s, i)
        if not m: raise ValueError('token: ' + s[i:i + 40])
        out.append(m.group(1)); i = m.end()
    return out

class P:
    def __init__(self, s, env, fns): self.t, self.i, self.env, self.fns = toks(s), 0, env, fns
    def peek(self, k=0): return self.t[self.i + k] if self.i + k < len(self.t) else None
    def eat(self, x=None):
        y = self.peek(); assert x is None or x == y, (x, y, self.t); self.i += 1; return y
    def look(self, path):
        """Value of a path such as `self.c0.c1`."""
        if path in self.env: return self.env[path]
        if path.startswith('C.'): return path
        kids = {k[len(path) + 1:].split('.')[0] for k in self.env if k.startswith(path + '.')}
        if kids: return ('struct',) + tuple((k, self.look(path + '.' + k)) for k in sorted(kids))
        if '.' in path:
            h, f = path.rsplit('.', 1); v = self.look(h)
            if isinstance(v, tuple) and v[0] == 'struct': return dict(v[1:])[f]
            return ('.' + f, v)
        return path

class Rust(P):
    def expr(self): return self.binary(0)
    LV = [['|'], ['^'], ['&'], ['=='], ['+', '-'], ['*']]
    def binary(self, l):
        if l == len(self.LV): return self.unary()
        a = self.binary(l + 1)
        while self.peek() in self.LV[l]:
            o = self.eat(); b = self.binary(l + 1)
            a = ({'|': 'or', '&': 'and', '==': 'eq'}.get(o, o), a, b)
        return a
    def unary(self):
        if self.peek() in ('&', '*'): 
            self.eat()
            if self.peek() == 'mut': self.eat()
            return self.unary()
        if self.peek() == '-': self.eat(); return ('neg', self.unary())
        if self.peek() == '!': self.eat(); return ('not', self.unary())
        return self.postfix()
    def args(self):
        self.eat('('); a = []
        while self.peek() != ')':
            a.append(self.expr())
            if self.peek() == ',': self.eat()
        self.eat(')'); return a
    def postfix(self):
        x = self.peek()
        if x == '(':
            self.eat(); v = self.expr()
            if self.peek() == ',':
                vs = [v]
                while self.peek() == ',': self.eat(); vs.append(self.expr())
                v = ('tuple',) + tuple(vs)
            self.eat(')')
        elif x == '[':
            self.eat(); vs = []
            while self.peek() != ']':
                vs.append(self.expr())
                if self.peek() == ',': self.eat()
            self.eat(); v = ('list',) + tuple(vs)
        elif re.match(r'\d', x): self.eat(); v = str(int(x, 0))
        else:
            self.eat(); path = x
            while self.peek() == '.' and self.peek(2) != '(':
                self.eat(); path += '.' + self.eat()
            if self.peek() == '(':
                v = self.call(path.split('::')[-1], self.args())
            elif self.peek() == '{' and path[0] in '$ABCDEFGHIJKLMNOPQRSTUVWXYZ':
                self.eat(); fs = []
                while self.peek() != '}':
                    f = self.eat()
                    if self.peek() == ':': self.eat(); e = self.expr()
                    else: e = self.look(f)
                    fs.append((f, e))
                    if self.peek() == ',': self.eat()
                self.eat('}'); v = ('struct',) + tuple(sorted(fs))
            else:
                last = path.split('::')[-1]
                v = {'ZERO': '0', 'ONE': '1'}.get(last, last) if '::' in path else self.look(path)
        while self.peek() in ('.', '['):
            if self.eat() == '[':
                i = self.expr(); self.eat(']'); v = ('idx', v, i); continue
            m = self.eat()
            v = self.call(m, [v] + self.args()) if self.peek() == '(' else ('.' + m, v)
        return v
    def call(self, f, a):
        if f in ('zero', 'ZERO') and not a: return '0'
        if f in ('one', 'ONE') and not a: return '1'
        if f in ('a', 'b') and not a: return 'C.' + f
        if f == 'conditional_select': return ('if', a[2], a[1], a[0])
        if f == 'unwrap_or': return ('getD', a[0], a[1])
        if f == 'ct_eq': return ('eq', a[0], a[1])
        f = self.fns.get(f, f)
        return (f,) + tuple(a)

class Lean(P):
    STOP = {'+', '-', '*', ')', '⟩', ',', '&&', '||', '==', '=', ']', None, 'then', 'else'}
    LV = [['||'], ['&&'], ['==', '='], ['+', '-'], ['*']]
    def expr(self):
        if self.peek() == 'if':
            self.eat(); c = self.expr(); self.eat('then'); a = self.expr(); self.eat('else'); b = self.expr()
            return ('if', c, a, b)
        return self.binary(0)
    def binary(self, l):
        if l == len(self.LV): return self.unary()
        a = self.binary(l + 1)
        while self.peek() in self.LV[l]:
            o = self.eat(); b = self.binary(l + 1)
            a = ({'||': 'or', '&&': 'and', '==': 'eq', '=': 'eq'}.get(o, o), a, b)
        return a
    def unary(self):
        if self.peek() == '-': self.eat(); return ('neg', self.unary())
        if self.peek() == '!': self.eat(); return ('not', self.unary())
        h = self.peek()
        if re.match(r'[A-Za-z]', h) and self.path_fn():
            f = self.path(); a = []
            while self.peek() not in self.STOP: a.append(self.atom())
            if f.endswith('.getD') and a[-1] == '0' and len(a) == 2: return ('idx', self.look(f[:-5]), a[0])
            f = self.fns.get(f, f.split('.')[-1])
            a = [x for x in a if x not in ('C', 'O')]
            if f == 'decide': return a[0]
            return (f,) + tuple(a)
        a = self.atom()
        if self.peek() not in self.STOP: raise ValueError((self.t, self.i))
        return a
    def path_fn(self):
        """Is the path at the cursor applied to something?"""
        j = self.i + 1
        while j + 1 < len(self.t) and self.t[j] == '.': j += 2
        return j < len(self.t) and self.t[j] not in self.STOP
    def path(self):
        p = self.eat()
        while self.peek() == '.': self.eat(); p += '.' + self.eat()
        return p
    def atom(self):
        x = self.peek()
        if x == '(':
            self.eat(); v = self.expr()
            if self.peek() == ',':
                vs = [v]
                while self.peek() == ',': self.eat(); vs.append(self.expr())
                v = ('tuple',) + tuple(vs)
            self.eat(')')
            while self.peek() == '.':
                self.eat(); m = self.eat(); a = []
                while self.peek() not in self.STOP: a.append(self.atom())
                v = (m, v) + tuple(a)
            return v
        if x in '⟨[':
            self.eat(); vs = []
            while self.peek() not in ('⟩', ']'):
                vs.append(self.expr())
                if self.peek() == ',': self.eat()
            c = self.eat(); return ('anon' if c == '⟩' else 'list',) + tuple(vs)
        if re.match(r'\d', x): self.eat(); return str(int(x, 0))
        p = self.path()
        if p.endswith('identity') and p[0].isupper() or p == 'identity': return ('identity',)
        m = re.match(r'(.*)\.([12])$', p)
        if m and m.group(1) in self.env:
            v = self.env[m.group(1)]
            return v[int(m.group(2))] if v[0] == 'tuple' else ('fst' if m.group(2) == '1' else 'snd', v)
        return self.look(p)

# ---------------------------------------------------------------- reading the two texts

def rust(file, lo, hi, env, fns, muts, result, hook=None):
    """Read the assignments in lines lo..hi; `muts` are the methods and functions that change their first argument."""
    L = open(f'{REPO}/{file}').read().split('\n')[lo - 1:hi]
    s = '\n'.join(re.sub(r'//.*', '', l) for l in L)
    env = dict(env)
    R = lambda e: Rust(e, env, fns).expr()
    def put(x, v):
        x = x.strip().lstrip('*')
        for k in [k for k in env if k.startswith(x + '.')]: del env[k]
        env[x] = v
    for st in split(s):
        st = st.strip()
        if not st or st.startswith('use '): continue
        st = re.sub(r'^let (mut )?', '', st)
        if hook and hook(st, env, put, R): continue
        m = re.match(r'\((\w+), (\w+)\)\s*=\s*(.*)$', st, re.S)
        if m:
            v = R(m.group(3)); put(m.group(1), ('fst', v)); put(m.group(2), ('snd', v)); continue
        m = re.match(r'([\w.*]+)\s*([-+*]?)=\s*(.*)$', st, re.S)
        if m:
            v = R(m.group(3)); put(m.group(1), (m.group(2), R(m.group(1)), v) if m.group(2) else v); continue
        m = re.match(r'([\w.]+)\.(\w+)\((.*)\)$', st, re.S)
        if m and m.group(2) in muts:
            a = Rust('(0,' + m.group(3) + ')', env, fns).expr()[2:] if m.group(3) else ()
            put(m.group(1), muts[m.group(2)](R(m.group(1)), *a)); continue
        m = re.match(r'(\w+)\(&mut (\w+)\)$', st)
        if m and m.group(1) in muts: put(m.group(2), muts[m.group(1)](R(m.group(2)))); continue
        return norm(R(st)) if result is None else None
    return norm(('tuple',) + tuple(Rust(r, env, fns).expr() for r in result))

def split(s):
    """Statements: split at `;` outside of brackets."""
    out, d, cur = [], 0, ''
    for c in s:
        if c in '({[': d += 1
        if c in ')}]': d -= 1
        if c == ';' and d == 0: out.append(cur); cur = ''
        else: cur += c
    return out + [cur]

def lean(file, name, env, fns, branch=None, stop=None):
    """Read the `let`s of a definition and its result; `branch` is 0 or 1 for a definition that starts with an `if`."""
    s = open(f'{LEAN}/{file}').read()
    ns, _, nm = name.rpartition('/')
    if ns: s = s[s.index('namespace ' + ns + '\n'):]
    i = re.search(r'^def ' + re.escape(nm) + r'\b', s, re.M).start()
    body = s[i:s.index('\n\n', i)].split('\n')
    k = 0
    while not body[k].endswith(':='): 
        k += 1
        if k == len(body): k = 0; break
    body = body[k + 1:] if body[k].endswith(':=') else [body[0].split(':=', 1)[1]]
    if branch is not None:
        e = next(i for i, l in enumerate(body) if l.strip().startswith('else'))
        if branch == 0: body = body[1:e]
        else: body = body[e + 1:] if body[e].strip() == 'else' else [body[e].strip()[4:]]
        if branch == 0 and e == 1: body = [re.sub(r'^\s*if .* then ', '', s[i:].split(':=\n')[1].split('\n')[0])]
    env = dict(env); res = []
    for l in body:
        l = re.sub(r' : (Cubic F|F|Proj F|Quad F|Aff F|Fp p) :=', ' :=', l)
        m = re.match(r'\s*let ([\w\']+) := (.*)$', l)
        if m:
            v = Lean(m.group(2), env, fns).expr()
            for k in [k for k in env if k.startswith(m.group(1) + '.')]: del env[k]
            env[m.group(1)] = v
            continue
        m = re.match(r'\s*match (.*) with$', l)
        if m: pending = Lean(m.group(1), env, fns).expr(); continue
        if re.match(r'\s*\| none => none$', l): continue
        m = re.match(r'\s*\| some (\w+) =>$', l)
        if m: env[m.group(1)] = ('unwrap', pending); continue
        res.append(re.sub(r'^(\s*)some ', r'\1', l))
    if stop: return norm(('tuple',) + tuple(Lean(r, env, fns).expr() for r in stop))
    return norm(Lean(' '.join(res), env, fns).expr())

def norm(t):
    """Structures, tuples and lists become their components; repeated subtrees are shared."""
    memo = {}
    def go(t):
        if isinstance(t, str): return t
        k = id(t)
        if k in memo: return memo[k][1]
        if t[0] == 'struct': r = ('anon',) + tuple(go(v) for _, v in t[1:])
        elif t[0] == 'unwrap': r = go(t[1])
        elif t[0] == 'if' and isinstance(t[1], tuple) and t[1][0] == 'not': r = ('if', go(t[1][1]), go(t[3]), go(t[2]))
        elif t[0] == 'svdwG': x = go(t[1]); r = ('+', ('*', ('+', ('sqr', x), 'C.a'), x), 'C.b')
        elif t[0] in ('tuple', 'list'): r = ('anon',) + tuple(go(v) for v in t[1:])
        else: r = (t[0],) + tuple(go(v) for v in t[1:])
        memo[k] = (t, r); return r
    return go(t)

ids = {}
def digest(t):
    """Number of a tree, equal for equal trees."""
    memo = {}
    def go(t):
        if isinstance(t, str): key = t
        else:
            if id(t) in memo: return memo[id(t)]
            key = (t[0],) + tuple(go(v) for v in t[1:])
        r = ids.setdefault(key, len(ids))
        if not isinstance(t, str): memo[id(t)] = r
        return r
    return go(t)

bad = n = 0
def check(what, a, b):
    global bad, n
    n += 1
    if digest(a) != digest(b):
        bad += 1; print('DIFFERENT', what); print('   repo ', str(a)[:600]); print('   model', str(b)[:600])

# ---------------------------------------------------------------- the pairs

FN = {'square': 'sqr', 'double': 'dbl', 'mul_by_nonresidue': 'mulNr', 'mul_by_3b': 'mul3b', 'is_zero': 'isZero',
      'is_identity': 'isIdentity', 'neg': 'neg', 'mul_by_01': 'mulBy01', 'mul_by_1': 'mulBy1', 'is_odd': 'isOdd',
      'ct_quadratic_non_residue': 'nonResidue', 'frobenius_map': 'frob', 'exp_by_x': 'expByX', 'mul_512': 'mul512'}
LF = {'ExtField.sqr': 'sqr'}
MUT = {'mul_assign': lambda x, y: ('*', x, y), 'conjugate': lambda x: ('conj', x), 'cyclotomic_square': lambda x: ('cyc', x),
       'frobenius_map': lambda x, k: ('frob', k, x), 'exp_by_x': lambda x: ('expByX', x)}
CV = 'src/derive/curve.rs'
CM = 'Verif/Curve/Model.lean'
pr = lambda r, l: {f'{r}.{c}': f'{l}.{c}' for c in 'xyz'}
SELF = {**pr('self', 'p'), **pr('rhs', 'q'), **pr('other', 'q'), '$constant_a': 'C.a', '$constant_b': 'C.b'}

def xyz(v): return {f'{v}.{c}': f'{v}.{c}' for c in 'xyz'}
def xy(v): return {f'{v}.{c}': f'{v}.{c}' for c in 'xy'}
def cs(v, k): return {f'{v}.c{i}': f'{v}.c{i}' for i in range(k)}

def curve(name, lo, hi, branch, q=xyz):
    rq = {k: v for k, v in SELF.items() if not (q is xy and k == 'rhs.z')}
    r = rust(CV, lo, hi, rq, FN, {}, None)
    check(f'{CV}:{lo}-{hi} {name}', r, lean(CM, name, {**xyz('p'), **q('q')}, LF, branch))

curve('Proj/double', 529, 554, 0)
curve('Proj/double', 557, 595, 1)
curve('Proj/add', 891, 929, 0)
curve('Proj/add', 932, 977, 1)
curve('Proj/addMixed', 989, 1022, 0, xy)
curve('Proj/addMixed', 1025, 1065, 1, xy)
curve('Proj/isOnCurve', 434, 436, 0)
curve('Proj/isOnCurve', 441, 444, 1)

# the steps of the Miller loop
PD = 'src/derive/pairing.rs'
PM = 'Verif/Pairing/Model.lean'
check(f'{PD}:58-82', rust(PD, 58, 82, xyz('r'), FN, {}, ['(t0, t3, t6)', '(r.x, r.y, r.z)']), lean(PM, 'dblStep', xyz('r'), LF))
check(f'{PD}:89-114', rust(PD, 89, 114, {**xyz('r'), **xy('q')}, FN, {}, ['(t10, t1, t9)', '(r.x, r.y, r.z)']),
      lean(PM, 'addStep', {**xyz('r'), **xy('q')}, LF))

# the final exponentiations
OPS = {'ops.frob': 'frob', 'ops.conj': 'conj', 'ops.cyc': 'cyc'}
for f, lo, hi in [('src/bn256/engine.rs', 46, 122), ('src/pluto_eris/engine.rs', 137, 213)]:
    check(f'{f}:{lo}-{hi}', rust(f, lo, hi, {'f1': 'f1', 'f2': 'f2'}, FN, MUT, ['t0'])[1], lean(PM, 'bnChain', {}, OPS))
f, lo, hi = 'src/bls12381/engine.rs', 42, 66
check(f'{f}:{lo}-{hi}', rust(f, lo, hi, {'t0': 't0', 't1': 't1'}, FN, MUT, None), lean(PM, 'blsChain', {}, OPS))

# the extension fields
CU, QU, EM = 'src/ff_ext/cubic.rs', 'src/ff_ext/quadratic.rs', 'Verif/Ext/Model.lean'
ren = lambda r, l, k: {f'{r}.c{i}': f'{l}.c{i}' for i in range(k)}
def ext(what, f, lo, hi, renv, result, name, lenv):
    check(f'{f}:{lo}-{hi} {what}', rust(f, lo, hi, renv, FN, {}, result), lean(EM, name, lenv, LF))
C3 = lambda v: f'({v}.c0, {v}.c1, {v}.c2)'
ext('mul', CU, 54, 69, {**ren('lhs', 'x', 3), **ren('rhs', 'y', 3)}, ['lhs.c0', 'lhs.c1', 'lhs.c2'], 'Cubic/mul', {**cs('x', 3), **cs('y', 3)})
ext('square', CU, 75, 83, ren('el', 'x', 3), ['el.c0', 'el.c1', 'el.c2'], 'Cubic/square', cs('x', 3))
ext('mul_by_1', CU, 15, 25, ren('lhs', 'x', 3), None, 'Cubic/mulBy1', cs('x', 3))
ext('mul_by_01', CU, 34, 46, ren('lhs', 'x', 3), None, 'Cubic/mulBy01', cs('x', 3))
ext('invert', CU, 224, 229, ren('self', 'x', 3), ['(c0, c1, c2)', 't'], 'Cubic/invAux', cs('x', 3))
ext('mul', QU, 153, 156, {**ren('lhs', 'x', 2), **ren('rhs', 'y', 2)}, ['lhs.c0', 'lhs.c1'], 'Quad/mul', {**cs('x', 2), **cs('y', 2)})
ext('square', QU, 160, 164, ren('el', 'x', 2), ['el.c0', 'el.c1'], 'Quad/square', cs('x', 2))
ext('mul_by_014', QU, 20, 25, {'lhs.c0': 'x.c0', 'lhs.c1': 'x.c1'}, ['lhs.c0', 'lhs.c1'], 'Deg12/mulBy014', cs('x', 2))
deep = {f'c{i}.c{j}' for i in range(2) for j in range(3)}
ext('mul_by_034', QU, 36, 45, {f'lhs.{d}': f'x.{d}' for d in deep}, ['lhs.c0', 'lhs.c1'], 'Deg12/mulBy034', {f'x.{d}': f'x.{d}' for d in deep})

# cyclotomic squaring; `fp4_square(&mut u, &mut v, &a, &b)` sets `u` and `v`
TW = 'src/derive/field/tower.rs'
check(f'{TW}:223-226', rust(TW, 223, 226, {}, FN, {}, ['c0', 'c1']), lean(EM, 'Deg12/fp4Square', {}, LF))
def fp4(st, env, put, R):
    m = re.match(r'fp4_square\(&mut (\w+), &mut (\w+), &([\w.]+), &([\w.]+)\)$', st)
    if not m: return False
    v = ('fp4Square', R(m.group(3)), R(m.group(4)))
    put(m.group(1), ('fst', v)); put(m.group(2), ('snd', v)); return True
st = {f'self.{d}': f'x.{d}' for d in deep}
check(f'{TW}:229-247', rust(TW, 233, 246, st, FN, {}, [C3('self.c0'), C3('self.c1')], fp4),
      lean(EM, 'Deg12/cyclotomicSquare', {f'x.{d}': f'x.{d}' for d in deep}, LF))

# wide product of limbs
AR = 'src/arithmetic.rs'
check(f'{AR}:50-71 mul_512', rust(AR, 51, 71, {}, {}, {}, None), lean('Verif/Glv/Model.lean', 'mul512', {}, {}))

# hashing
HC, HM = 'src/hash_to_curve.rs', 'Verif/Hash/Map.lean'
def block(st, env, put, R):
    """`x = { let x = ...; e }`"""
    m = re.match(r'(\w+) = \{\s*let (\w+) = ([^;]*);\s*(.*?)\s*\}$', st, re.S)
    if not m: return False
    put(m.group(2), R(m.group(3))); put(m.group(1), R(m.group(4))); return True
FH = {**FN, 'sqrt_ratio': 'sqrtRatio', 'TWO_INV': 'twoInv'}
check(f'{HC}:157-176', rust(HC, 157, 176, {}, FH, {}, None, block), lean(HM, 'svdwConstants', {'O.twoInv': 'TWO_INV'}, LF))
check(f'{HC}:299-358', rust(HC, 299, 358, {}, FH, {}, ['x'])[1], lean(HM, 'svdwX', {f'k.c{i}': f'c{i}' for i in range(1, 5)}, LF))
check(f'{HC}:228-283', rust(HC, 228, 283, {}, FH, {}, None), lean(HM, 'sswuMap', {}, LF))

# more of the curve
curve('Proj/ctEq', 366, 376, None)
check(f'{CV}:417-420', rust(CV, 418, 420, SELF, FN, {}, None), lean(CM, 'Proj/jacobianCoordinates', xyz('p'), LF))
check(f'{CV}:508-515', rust(CV, 508, 515, SELF, FN, {}, None), lean(CM, 'Proj/toAffine', xyz('p'), LF))
check(f'{CV}:306-307', rust(CV, 306, 307, SELF, FN, {}, None), lean(CM, 'y2', {}, LF, 0))
check(f'{CV}:309-310', rust(CV, 309, 310, SELF, FN, {}, None), lean(CM, 'y2', {}, LF, 1))

# ---------------------------------------------------------------- the assembly blocks
ASM = open(f'{REPO}/derive/src/field/asm/limb4.rs').read().split('\n')
PRG = open(f'{LEAN}/Verif/Asm/Programs.lean').read()
def operand(o):
    o = o.strip()
    m = re.match(r'qword ptr \[\{(\w)_ptr\} \+ (\d+)\]$', o)
    if m: return f'(.mem .{m.group(1)} {int(m.group(2)) // 8})'
    if o == '{inv}': return '.inv'
    if re.match(r'0x|\d', o): return f'(.imm {int(o, 0)})'
    return f'(.reg .{o})'
blocks, cur = [], None
for l in ASM:
    l = l.strip()
    if l.startswith('asm!('): cur = []; blocks.append(cur)
    elif l.startswith('"'):
        op, rest = l.split('//')[0].strip().rstrip(',').strip('"').split(' ', 1)
        ops = rest.split(',')
        k = 2 if op == 'mulx' else 1
        cur.append('.' + ' '.join([op] + ['.' + o.strip() for o in ops[:k]] + [operand(o) for o in ops[k:]]))
for name, b in zip(['doubleProg', 'fromMontProg', 'mulProg', 'subProg', 'addProg', 'negProg'], blocks):
    m = re.search(r'def ' + name + r' : List Instr :=\s*\[(.*?)\]', PRG, re.S)
    model = [re.sub(r'0x([0-9a-f]+)', lambda h: str(int(h.group(1), 16)), ' '.join(x.split())) for x in m.group(1).split(',')]
    check('asm ' + name, ('anon',) + tuple(b), ('anon',) + tuple(model))
assert len(blocks) == 6

# ---------------------------------------------------------------- the operands of the assembly blocks
CON = open(f'{LEAN}/Verif/Asm/Contract.lean').read()
opnds, cur = [], None
for l in ASM:
    l = l.strip()
    if l.startswith('asm!('): cur = [[], 'false', {}, []]; opnds.append(cur)
    m = re.match(r'(\w)_ptr = in\(reg\) (self|rhs|#field::MODULUS_LIMBS)\b', l)
    if m:
        assert {'a': 'self', 'b': 'rhs', 'm': '#field::MODULUS_LIMBS'}[m.group(1)] == m.group(2)
        cur[0].append('.' + m.group(1))
    if l.startswith('inv = in(reg) #inv'): cur[1] = 'true'
    m = re.match(r'out\("(\w+)"\) (\w+)', l)
    if m and m.group(2) == '_': cur[3].append('.' + m.group(1))
    elif m: cur[2][m.group(2)] = '.' + m.group(1)
    if l.startswith('options('): assert l == 'options(pure, readonly, nostack)'
for name, (p, i, o, c) in zip(['double', 'fromMont', 'mul', 'sub', 'add', 'neg'], opnds):
    m = re.search(r'def ' + name + r'Block : Block :=\s*⟨' + name + r'Prog, \[(.*?)\], (\w+), \[(.*?)\], \[(.*?)\]⟩', CON, re.S)
    L = lambda x: ('anon',) + tuple(x)
    check(f'asm operands {name}', L([L(p), i, L(o[f'r{j}'] for j in range(4)), L(c)]),
          L([L(m.group(1).split(', ')), m.group(2), L(m.group(3).split(', ')), L(m.group(4).split(', '))]))
assert len(opnds) == 6

print(n, 'compared,', bad, 'different')
sys.exit(bad != 0)
