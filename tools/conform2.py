"""Translate the repository's closet / BDD node tests (bowtie-core) and its older ZDD tree tests (weave/src/zdd) into Lean
examples about the model; companion of conform.py."""
import re, sys
sys.path.insert(0, '/verif/tools')
import conform
from conform import body, fns
conform.TOK = re.compile(r'\s*(//[^\n]*|"(?:[^"\\]|\\.)*"|\d+|::|[A-Za-z_][A-Za-z_0-9]*!(?!=)|[A-Za-z_][A-Za-z_0-9]*|->|=>|[-+*&.,;:(){}\[\]<>=#\'|/!?@$^])')

class P(conform.P):
    def expr(self): return self.bin('|')
    def bin(self, op):
        nxt = {'|': '^', '^': '&'}
        sub = (lambda: self.bin(nxt[op])) if op in nxt else self.unary
        e = sub()
        while self.peek() == op:
            self.eat(); e = ('call', ['op', {'|': 'or', '^': 'xor', '&': 'and'}[op]], [e, sub()])
        return e
    def unary(self):
        if self.peek() == '&': self.eat(); return self.unary()
        if self.peek() == '!': self.eat(); return ('call', ['op', 'not'], [self.unary()])
        return self.postfix()
    def postfix(self):
        v = self.peek()
        if v == '(':
            self.eat(); a = self.args(')'); e = ('tuple', a) if len(a) != 1 else a[0]
        elif v == '{':
            self.eat(); e = ('block', self.stmts()); self.eat('}')
        elif v == '[': self.eat(); e = ('list', self.args(']'))
        elif v.startswith('"'): self.eat(); e = ('str', v[1:-1])
        elif v.isdigit(): self.eat(); e = ('num', int(v))
        elif v == 'vec!': self.eat(); self.eat('['); e = ('list', self.args(']'))
        elif v == 'btreeset!': self.eat(); self.eat('('); e = ('set', self.args(')'))
        elif v in ('true', 'false'): self.eat(); e = ('bool', v)
        else:
            path = [self.eat()]
            while self.peek() == '::':
                self.eat()
                if self.peek() == '<': self.generics()
                else: path.append(self.eat())
            if self.peek() == '(':
                self.eat(); e = ('call', path, self.args(')'))
            elif self.peek() == '{' and len(path) > 1:
                self.eat(); a = []
                while self.peek() != '}':
                    self.eat()
                    if self.peek() == ':': self.eat()
                    a.append(self.expr())
                    if self.peek() == ',': self.eat()
                self.eat(); e = ('call', path, a)
            else: e = ('var', path[-1]) if len(path) == 1 else ('path', path)
        while self.peek() == '.':
            self.eat(); m = self.eat()
            if self.peek() == '::': self.eat(); self.generics()
            self.eat('('); e = ('call', ['_', m], [e] + self.args(')'))
        return e
    def stmt(self):
        if self.peek() == 'let' and self.peek(1) == 'mut': self.t.pop(self.i + 1)
        if self.peek() == 'assert_eq!':
            self.eat(); self.eat('('); a = self.args(')')
            if self.peek() == ';': self.eat()
            return ('assert', a[0], a[1])
        return super().stmt()
    def stmts(self):
        out = []
        while self.peek() not in (None, '}'): out.append(self.stmt())
        return out

def lex(s): return conform.lex(s)

class Run:
    def __init__(self): self.asserts = []
    def ev(self, e, env):
        k = e[0]
        if k == 'var': return env[e[1]]
        if k in ('tuple', 'list', 'set'): return (k, [self.ev(x, env) for x in e[1]])
        if k == 'block': return self.block(e[1], dict(env))
        if k == 'call':
            if e[1][-1] in ('insert', 'or_insert'):
                tgt = e[2][0]
                key = None
                if e[1][-1] == 'or_insert': key, tgt, val = tgt[2][1], tgt[2][0], e[2][1]
                else: key, val = e[2][1], e[2][2]
                env[tgt[1]][1].append((self.ev(key, env), self.ev(val, env))); return ('tuple', [])
            if e[1][0] in ('HashMap', 'BTreeMap') and e[1][-1] == 'new': return ('map', [])
            return (k, e[1], [self.ev(x, env) for x in e[2]])
        return e
    def block(self, stmts, env):
        ret = None
        for st in stmts:
            if st[0] == 'let': env[st[1]] = self.ev(st[2], env)
            elif st[0] == 'assert': self.asserts.append((self.ev(st[1], env), self.ev(st[2], env)))
            else: ret = self.ev(st[1], env)
        return ret

def strs(e, acc):
    k = e[0]
    if k == 'str': acc.add(e[1])
    elif k in ('tuple', 'list', 'set'):
        for x in e[1]: strs(x, acc)
    elif k == 'map':
        for a, b in e[1]: strs(a, acc); strs(b, acc)
    elif k == 'call':
        if e[1][-1] in ('expect', 'expect_err'): strs(e[2][0], acc)
        else:
            for x in e[2]: strs(x, acc)

class Emit:
    def __init__(self, rank): self.rank = rank
    def val(self, e):
        """python value of a set literal"""
        if e[0] == 'str': return self.rank[e[1]]
        if e[0] == 'set': return sorted(self.val(x) for x in e[1])
        if e[0] == 'call' and e[1][-1] == 'clone': return self.val(e[2][0])
        raise Exception('val %s' % (e,))
    def go(self, e):
        k = e[0]
        if k == 'str': return 'V', str(self.rank[e[1]])
        if k == 'num': return 'V', str(e[1])
        if k == 'bool': return 'V', e[1]
        if k == 'set': return 'V', str(self.val(e))
        if k in ('list', 'tuple'):
            b = '[]' if k == 'list' else '()'
            return 'V', b[0] + ', '.join(self.go(x)[1] for x in e[1]) + b[1]
        if k == 'map':
            l = sorted((int(self.go(a)[1]), self.go(b)[1]) for a, b in e[1])
            return 'V', '[' + ', '.join('(%d, %s)' % p for p in l) + ']'
        if k == 'path':
            if e[1][-1] == 'TRUE_LEAF': return 'N', 'bdd.T'
            if e[1][-1] == 'FALSE_LEAF': return 'N', 'bdd.F'
            raise Exception('path %s' % (e,))
        path, args = e[1], e[2]
        f = path[-1]
        if f in ('clone',): return self.go(args[0])
        if path[0] in ('Item', 'Family', 'Outfit') and f == 'new': return self.go(args[0])
        if f in ('unwrap', 'expect', 'expect_err'):
            kk, t = self.go(args[0])
            if kk == 'R': return 'C', '(%s.bind ok)' % t
            if kk == 'X' and f == 'expect_err': return 'O', '(err %s)' % t
            raise Exception('unwrap')
        ks = [self.go(a) for a in args]
        s = ' '.join(t for _, t in ks)
        kind0 = ks[0][0] if ks else None
        if path[0] == 'op': return 'N', '(bdd.%s %s)' % (f, s)
        if path[0] == 'ItemStatus': return 'V', '(.%s %s)' % (f, s)
        if path[0] in ('ClosetBuilderError',): return 'V', '(.Single (.%s %s))' % (f, s)
        if path[0] == 'Err': return 'V', '(.error %s)' % s
        if path[0] == 'Ok': return 'V', '(.ok %s)' % s
        if path[0] == 'SelectItemError' or f in ('UnknownItems', 'MultipleItemsPerFamily', 'IncompatibleSelections'):
            return 'V', '(.%s %s)' % (f, s)
        if path[0] == 'Node':
            n = {'branch': 'branch', 'positive_branch': 'pos', 'negative_branch': 'neg', 'restrict': 'restrict',
                 'reduce': 'reduce', 'summarize': 'summarize'}[f]
            return ('V' if n == 'summarize' else 'N'), '(bdd.%s %s)' % (n, s)
        if path[0] == 'ClosetBuilder' and f == 'new': return 'B', 'bdd.builder'
        camel = re.sub(r'_(\w)', lambda m: m.group(1).upper(), f)
        if kind0 == 'B':
            if f.startswith('add_'): return 'B', '(bdd.%s %s)' % (camel, s)
            if f == 'must_build': return 'C', '(bdd.mustBuild %s)' % s
            if f == 'build': return 'X', '(bdd.build %s)' % s
        if kind0 == 'C':
            n = {'root': 'root', 'summary': 'summary', 'select_item': 'select', 'complete_outfit': 'complete',
                 'categorize': 'categorize', 'node_count': 'nodeCount', 'leaf_count': 'leafCount',
                 'outfit_count': 'outfitCount', 'depth': 'depth'}[f]
            return ('R' if n in ('select', 'complete') else 'O'), '(bdd.%s %s)' % (n, s)
        if path[0] == 'Universe' and f == 'from': return 'U', '(zdd1.items %s)' % s
        if path[0] == 'Universe' and f == 'default': return 'U', 'zdd1.default'
        if kind0 == 'U': return 'F1', '(zdd1.%s %s)' % (camel, s)
        if kind0 == 'F1':
            if f == 'summarize':
                return 'S', '(%s.summarize %s %s (%s.counts %s %s))' % (ks[0][1], ks[1][1], ks[2][1], ks[0][1], ks[1][1], ks[2][1])
            return ('F1' if f in ('union', 'intersect', 'product', 'restrict') else 'V'), '(zdd1.%s %s)' % (camel, s)
        raise Exception('emit %s %s' % (path, kind0))

def emit(asserts):
    s = set()
    for a, c in asserts: strs(a, s); strs(c, s)
    rank = {x: i + 1 for i, x in enumerate(sorted(s))}
    out = []
    for a, c in asserts:
        em = Emit(rank)
        (ka, la), (kc, lc) = em.go(a), em.go(c)
        if kc in ('O', 'R'): la = 'some ' + la
        out.append('%s = %s' % (lc, la))
    return out

FILES = {
 'Closet': ['bowtie-core/src/bdd/node/%s.rs' % f for f in ('reduce', 'restrict', 'summarize', 'bit_operations')]
    + ['bowtie-core/src/bdd/closet/%s.rs' % f for f in ('select', 'node_count', 'categorize')]
    + ['bowtie-core/src/bdd/closet_builder/mod.rs', 'bowtie-core/tests/closet_builder_bdd.rs', 'bowtie-core/tests/complete_outfit_bdd.rs'],
 'Zdd1': ['weave/src/zdd/tree/%s.rs' % f for f in ('mod', 'intersect', 'union', 'product', 'combinations', 'restrict', 'summarize')],
}

def write():
    for g, files in FILES.items():
        ts = []
        for path in files:
            for name, line, before, s, i in fns(path):
                if '#[test]' not in before: continue
                try:
                    r = Run(); r.block(P(lex(body(s, i))).stmts(), {})
                    ts.append((path, line, name, emit(r.asserts)))
                except Exception as ex:
                    print('SKIP', path, name, type(ex), str(ex)[:200], file=sys.stderr)
        out = ['import Verif.Conform.ApiMore', '', '/-!',
               '# The repository\'s own tests, replayed on the model (%s)' % g, '',
               'Generated by tools/conform2.py from the test functions cited; items are ranks of string literals.', '-/', '',
               'namespace Verif.Conform.Replay%s' % g, 'open Verif.Conform', '', 'set_option maxRecDepth 4000', '']
        for path, line, name, props in ts:
            out.append('/-! %s:%d `%s` -/' % (path, line, name))
            for p in props: out.append('example : %s :=\n  by decide +kernel' % p)
            out.append('')
        out.append('end Verif.Conform.Replay%s' % g)
        txt = []
        for l in '\n'.join(out).split('\n'):
            while len(l) > 110:
                k = l.rfind(' ', 0, 110)
                txt.append(l[:k]); l = '    ' + l[k+1:]
            txt.append(l)
        open('/verif/lean/Verif/Conform/%s.lean' % g, 'w').write('\n'.join(txt) + '\n')
        print(g, len(ts), 'tests', sum(len(t[3]) for t in ts), 'assertions')

if __name__ == '__main__': write()
