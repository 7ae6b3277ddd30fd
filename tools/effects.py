#!/usr/bin/env python3
"""Translate the Python functions of /repo into `Model.Effects.Stmt` (lean/Verif/Model/EffectsTable.lean).

Only reference-relevant behaviour is kept.  The script is part of the trusted reading of the code: what it
takes for a new object, a shared object, an in-place write is listed in the tables below.
"""
import ast, os, sys
BASE = os.environ.get('EFFECTS_BASE', '/repo/graphblas_algorithms')
OUT = os.environ.get('EFFECTS_OUT', '/verif/lean/Verif/Model/EffectsTable.lean')

# attributes that give an object the graph (or the argument they are read from) also holds
SHARED_ATTR = {'_A', 'matrix', '_key_to_id', 'id_to_key', '_id_to_key', '_cache', 'graph', 'vector', 'parent'}
# views of their base object
VIEW_ATTR = {'T', 'S', 'V'}
# plain data
DATA_ATTR = {'nvals', 'nrows', 'ncols', 'shape', 'size', 'dtype', 'value', 'name', 'args', 'is_iso', 'iso_value',
             'ss', 'is_scalar', 'is_empty', 'return_type', 'issubdtype', 'number', 'inf', 'int64', 'uint64',
             'exceptions', 'keys', '_is_udt', 'np_type', 'itemsize', 'structure', '_cache_aliases', '_property_priority', '__getitem__', 'strip', 'format'}
# methods that return a new object (or a number, or an unevaluated expression)
NEW_METHODS = {'new', 'dup', 'get', 'to_coo', 'to_values', 'diag', 'apply', 'outer', 'reduce', 'reduce_rowwise',
               'reduce_columnwise', 'reduce_scalar', 'from_coo', 'from_scalar', 'isequal', 'tolist', 'items', 'keys',
               'values', 'isdisjoint', 'is_multigraph', 'is_directed', 'number_of_nodes', 'order', 'unify', 'lower',
               'select', 'ewise_mult', 'ewise_add', 'ewise_union', 'vxm', 'mxv', 'mxm', 'inner', 'power', 'todense',
               'to_dense', 'sort', 'fromiter', 'arange', 'all', 'any', 'sum', 'cumsum', 'floor', 'ceil', 'sqrt',
               'startswith', 'endswith', 'isdigit', 'replace', 'rstrip', 'lstrip', 'rindex', 'index', 'count',
               'from_dicts', 'from_iterable', 'starmap', 'pairwise', 'chain', 'repeat', 'sliding_window_view',
               'from_edgelist', 'union', 'intersection', 'difference', 'argsort', 'zeros', 'ones', 'full',
               'concat', 'export', 'serialize', 'compactify', 'selectk', 'get_networkx', 'union1d', 'transpose',
               'setdefault_', 'pop_', 'join', 'split', 'cast', 'sqrt', 'isinf', 'unique', 'flatten', 'to_networkx',
               'add_nodes_from_', 'from_networkx', 'isnan', 'astype', 'from_value', 'warn', 'to_dicts', 'get_all_properties', 'from_dense'}
# methods that change their receiver
MUT_METHODS = {'clear', 'update', 'append', 'extend', 'add', 'resize', 'build', 'pop', 'popitem', 'setdefault',
               'discard', 'remove', 'insert', 'add_nodes_from', 'add_edges_from', 'add_weighted_edges_from'}
# modules / operator namespaces of graphblas, numpy and the standard library
NS = {'binary', 'unary', 'monoid', 'semiring', 'select', 'indexunary', 'agg', 'gb', 'np', 'dtypes', 'nx', 'itertools',
      'math', 'replace', 'any_pair', 'any_pair_bool', 'plus_pair', 'plus_times', 'plus_first', 'min_plus', 'any_plus',
      'any_second', 'min_first', 'any_first', 'one', 'lor_pair', 'plus_second', 'max_first', 'ga', 'index', 'row',
      'positioni', 'any', 'aggs', 'random'}
BUILTIN_NEW = {'Vector', 'Matrix', 'Scalar', 'len', 'sum', 'range', 'set', 'sorted', 'zip', 'dict', 'int', 'float',
               'max', 'min', 'isinstance', 'iter', 'next', 'list', 'tuple', 'abs', 'round', 'divmod', 'str', 'bool',
               'enumerate', 'reversed', 'map', 'filter', 'any', 'all', 'type', 'getattr', 'hasattr', 'ceil', 'sqrt',
               'repr', 'slice', 'frozenset', 'hash', 'deepcopy', 'output_type', 'partition', 'normalize_chunksize', 'split_evenly', 'not_implemented_for', 'ValueError', 'print', 'object', 'callable'}
# constructors of graph objects and node maps: the result stands for the object it wraps
WRAP = {'Graph', 'DiGraph', 'NodeMap', 'NodeSet', 'VectorNodeMap', 'NodeNodeMap', 'VectorMap', 'cls'}
# conversions of the argument G (they return G itself or a new graph): shared
CONVERT = {'to_graph', 'to_directed_graph', 'to_undirected_graph'}
PROPERTY = {'get_property', 'get_properties', '_cacheit'}
# properties whose value is a Python number or bool (immutable)
NUMBER_PROP = {'total_recip+', 'total_recip-', 'has_self_edges', 'has_negative_diagonal', 'has_negative_edges+',
               'has_negative_edges-', 'is_iso'}
# parameters that are numbers: augmented assignment rebinds them
NUMBER_PARAM = {'alpha', 'k', 'max_iter', 'tol'}

warn = []

class Fn:
    pass

fns = {}      # (module, name) -> Fn
byname = {}

def modname(rel):
    return rel[:-3].replace('/', '.')

def collect(rel, classes=()):
    t = ast.parse(open(os.path.join(BASE, rel)).read())
    imports = {}
    for n in ast.walk(t):
        if isinstance(n, ast.ImportFrom):
            for a in n.names:
                imports[a.asname or a.name] = (n.module or '', a.name)
    def add(node, cls=None):
        f = Fn()
        f.rel, f.name, f.node, f.cls = rel, node.name, node, cls
        f.mod = modname(rel)
        f.params = [a.arg for a in node.args.posonlyargs + node.args.args + node.args.kwonlyargs]
        f.imports = imports
        f.stmt = None
        f.id = (f.mod + ('.' + cls if cls else '') + '.' + f.name)
        fns[f.id] = f
        byname.setdefault(f.name, []).append(f)
    for n in t.body:
        if isinstance(n, ast.FunctionDef):
            add(n)
        elif isinstance(n, ast.ClassDef) and n.name in classes:
            for m in n.body:
                if isinstance(m, ast.FunctionDef):
                    add(m, n.name)
    return imports

def lean_id(f):
    return f.id.replace('.', '_')

# ---- statements as nested tuples ----
SKIP = ('skip',)
def seq(xs):
    xs = [x for x in xs if x != SKIP]
    if not xs: return SKIP
    r = xs[-1]
    for x in reversed(xs[:-1]):
        r = ('seq', x, r)
    return r

def ownparams(ps, as_, own):
    return [p for p in ps if all((a in own) for q, a in zip(ps, as_) if q == p)]

def chk(fr, s, own):
    k = s[0]
    if k == 'skip': return own
    if k == 'new': return own | {s[1]}
    if k == 'shared': return own - {s[1]}
    if k == 'move': return own | {s[1]} if s[2] in own else own - {s[1]}
    if k == 'write':
        return own if s[1] in own else None
    if k == 'seq':
        a = chk(fr, s[1], own)
        return None if a is None else chk(fr, s[2], a)
    if k == 'ite':
        a, b = chk(fr, s[1], own), chk(fr, s[2], own)
        return None if a is None or b is None else a & b
    if k == 'loop':
        return s[1] if s[1] <= own and stable(s[2], s[1]) and chk(fr, s[2], s[1]) is not None else None
    if k == 'attempt':
        if not (s[1] <= own and stable(s[2], s[1])): return None
        a, b = chk(fr, s[2], own), chk(fr, s[3], s[1])
        return None if a is None or b is None else a & b
    if k in ('ret', 'yield'):
        return own if (not fr or set(s[1]) <= own) else None
    if k == 'call':
        f = s[3]
        op = frozenset(ownparams(f.params, s[2], own))
        if chk(True, f.stmt, op) is not None: return own | set(s[1])
        if chk(False, f.stmt, op) is not None: return own - set(s[1])
        return None

def stable(s, S):
    k = s[0]
    if k in ('skip', 'new', 'write', 'ret', 'yield'): return True
    if k == 'shared': return s[1] not in S
    if k == 'move': return s[1] not in S or s[2] in S
    if k in ('seq', 'ite'): return stable(s[1], S) and stable(s[2], S)
    if k == 'loop': return stable(s[2], S)
    if k == 'attempt': return stable(s[2], S) and stable(s[3], S)
    if k == 'call':
        f = s[3]
        return not (set(s[1]) & S) or chk(True, f.stmt, frozenset(ownparams(f.params, s[2], S))) is not None

def annotate(s, own):
    """fill in loop annotations: (statement, own after or None)"""
    k = s[0]
    if k == 'seq':
        a, o = annotate(s[1], own)
        b, o2 = annotate(s[2], o if o is not None else own)
        return ('seq', a, b), o2
    if k == 'ite':
        a, o = annotate(s[1], own)
        b, o2 = annotate(s[2], own)
        return ('ite', a, b), ((o if o is not None else own) & (o2 if o2 is not None else own))
    if k in ('loop', 'attempt'):
        body = s[2]
        inv = set(own)
        while True:
            a, _ = annotate(body, frozenset(inv))
            if stable(a, inv): break
            drop = [x for x in inv if not stable_single(a, x, inv)]
            if not drop: drop = list(inv)
            inv -= set(drop)
        inv = frozenset(inv)
        if k == 'loop':
            return ('loop', inv, a), inv
        a, oa = annotate(body, own)
        b, ob = annotate(s[3], inv)
        return ('attempt', inv, a, b), ((oa if oa is not None else own) & (ob if ob is not None else inv))
    r = chk(False, s, own)
    return s, (r if r is not None else own)

def stable_single(s, x, S):
    k = s[0]
    if k in ('skip', 'new', 'write', 'ret', 'yield'): return True
    if k == 'shared': return s[1] != x
    if k == 'move': return s[1] != x or s[2] in S
    if k in ('seq', 'ite'): return stable_single(s[1], x, S) and stable_single(s[2], x, S)
    if k == 'loop': return stable_single(s[2], x, S)
    if k == 'attempt': return stable_single(s[2], x, S) and stable_single(s[3], x, S)
    if k == 'call':
        f = s[3]
        return x not in s[1] or chk(True, f.stmt, frozenset(ownparams(f.params, s[2], S))) is not None

class Tr:
    def __init__(self, f):
        self.f = f
        self.tmp = 0
        self.locals = set(f.params)
    def fresh(self):
        self.tmp += 1
        return f'_{self.tmp}'
    def w(self, node, msg):
        warn.append(f'{self.f.rel}:{node.lineno} {self.f.name}: {msg}: {ast.unparse(node)[:90]}')

    def resolve(self, name, node):
        """project function a bare or dotted name refers to"""
        if name in self.locals: return None
        f = fns.get(self.f.mod + '.' + name)
        if f: return f
        if name in self.f.imports:
            mod, orig = self.f.imports[name]
            c = [g for g in byname.get(orig, []) if g.cls is None]
            c = [g for g in c if mod.split('.')[-1] in g.mod.split('.') or g.mod.startswith('algorithms')]
            c = [g for g in c if not g.mod.startswith('nxapi')] or c
            if c: return c[0]
        return None

    def root(self, e):
        while isinstance(e, (ast.Attribute, ast.Subscript, ast.Call)):
            e = e.func if isinstance(e, ast.Call) else e.value
        return e.id if isinstance(e, ast.Name) else None

    # returns (pre-statements, kind) with kind in ('new',) ('shared',) ('move', v) ('call', fn, args)
    def eff(self, e):
        """evaluate for the effects only"""
        pre, k = self.expr(e)
        return pre + [('call', [], k[2], k[1])] if k[0] == 'call' else pre

    def expr(self, e):
        if e is None or isinstance(e, (ast.Constant, ast.Lambda, ast.JoinedStr)):
            return [], ('new',)
        if isinstance(e, ast.Name):
            if e.id in self.locals: return [], ('move', e.id)
            return [], ('new',)
        if isinstance(e, ast.NamedExpr):
            pre = self.assign(e.target, e.value)
            return pre, ('move', e.target.id)
        if isinstance(e, ast.Attribute):
            if e.attr in VIEW_ATTR: return self.expr(e.value)
            pre = self.eff(e.value)
            if e.attr in SHARED_ATTR: return pre, ('shared',)
            if isinstance(e.value, ast.Name) and e.value.id in ('algorithms', 'linalg'): return [], ('new',)
            if e.attr not in DATA_ATTR and self.root(e) not in NS: self.w(e, 'attribute')
            return pre, ('new',)
        if isinstance(e, ast.Subscript):
            pre = self.eff(e.value)
            p2 = self.eff(e.slice)
            r = self.root(e)
            if r in ('cache',) or (isinstance(e.value, ast.Attribute) and e.value.attr == '_cache'):
                return pre + p2, ('shared',)
            return pre + p2, ('new',)
        if isinstance(e, ast.IfExp):
            p0 = self.eff(e.test)
            t = self.fresh()
            self.locals.add(t)
            a = seq(self.assign_to(t, e.body))
            b = seq(self.assign_to(t, e.orelse))
            return p0 + [('ite', a, b)], ('move', t)
        if isinstance(e, ast.Call):
            return self.call(e)
        if isinstance(e, (ast.GeneratorExp, ast.ListComp, ast.SetComp, ast.DictComp)):
            pre = []
            save = set(self.locals)
            inner = []
            for g in e.generators:
                p = self.eff(g.iter)
                pre += p
                for n in ast.walk(g.target):
                    if isinstance(n, ast.Name):
                        self.locals.add(n.id)
                        inner.append(('shared', n.id))
                for c in g.ifs:
                    inner += self.eff(c)
            elts = [e.key, e.value] if isinstance(e, ast.DictComp) else [e.elt]
            for x in elts: inner += self.eff(x)
            self.locals = save
            inner = [s for s in inner if s[0] != 'shared' or not s[1].isidentifier() or s[1].startswith('_')]
            if inner: pre.append(('loop', None, seq(inner)))
            return pre, ('new',)
        if isinstance(e, (ast.Tuple, ast.List, ast.Set)):
            pre = []
            for x in e.elts: pre += self.eff(x)
            return pre, ('new',)
        if isinstance(e, ast.Dict):
            pre = []
            for x in list(e.keys) + e.values:
                if x is not None: pre += self.eff(x)
            return pre, ('new',)
        if isinstance(e, ast.BoolOp):
            # short-circuit: only the first operand is certainly evaluated
            pre = self.eff(e.values[0])
            rest = []
            for x in e.values[1:]: rest += self.eff(x)
            if rest: pre.append(('ite', seq(rest), SKIP))
            plain = all(isinstance(x, (ast.Compare, ast.UnaryOp, ast.BoolOp, ast.Constant)) or (isinstance(x, ast.Call) and (isinstance(x.func, ast.Name) and x.func.id in BUILTIN_NEW or isinstance(x.func, ast.Attribute) and x.func.attr.startswith('is_'))) for x in e.values)
            return pre, ('new',) if plain else ('shared',)
        if isinstance(e, ast.Compare):
            pre = self.eff(e.left)
            for x in e.comparators: pre += self.eff(x)
            return pre, ('new',)
        if isinstance(e, ast.BinOp):
            return self.eff(e.left) + self.eff(e.right), ('new',)
        if isinstance(e, ast.UnaryOp):
            return self.eff(e.operand), ('new',)
        if isinstance(e, ast.Starred):
            return self.expr(e.value)
        if isinstance(e, ast.Slice):
            pre = []
            for x in (e.lower, e.upper, e.step):
                if x is not None: pre += self.eff(x)
            return pre, ('new',)
        if isinstance(e, (ast.Yield, ast.YieldFrom)):
            pre, xs = self.values(e.value)
            return pre + [('yield', xs)], ('new',)
        self.w(e, 'expression ' + type(e).__name__)
        return [], ('new',)

    def bind(self, x, k):
        if k[0] == 'new': return [('new', x)]
        if k[0] == 'shared': return [('shared', x)]
        if k[0] == 'move': return [('move', x, k[1])]
        if k[0] == 'call': return [('call', [x], k[2], k[1])]

    def assign_to(self, x, e):
        pre, k = self.expr(e)
        self.locals.add(x)
        return pre + self.bind(x, k)

    def as_var(self, e):
        """evaluate an argument into a variable"""
        if isinstance(e, ast.Name) and e.id in self.locals: return [], e.id
        t = self.fresh()
        return self.assign_to(t, e), t

    def project_call(self, f, e, recv=None):
        pre, args = [], {}
        params = f.params
        pos = list(params)
        if recv is not None:
            p, v = self.as_var(recv)
            pre += p
            args[pos.pop(0)] = v
        for a in e.args:
            if isinstance(a, ast.Starred):
                pre += self.eff(a); continue
            p, v = self.as_var(a)
            pre += p
            if pos: args[pos.pop(0)] = v
        for kw in e.keywords:
            p, v = self.as_var(kw.value)
            pre += p
            if kw.arg in params: args[kw.arg] = v
        for p_ in params:
            if p_ not in args:
                # a default: a constant
                t = self.fresh(); pre.append(('new', t)); args[p_] = t
        translate(f)
        return pre, ('call', f, [args[p_] for p_ in params])

    def call(self, e):
        fn = e.func
        def args_effects():
            pre = []
            for a in e.args: pre += self.eff(a)
            for kw in e.keywords: pre += self.eff(kw.value)
            return pre
        if isinstance(fn, ast.Name):
            if fn.id in WRAP:
                pre, k = self.expr(e.args[0]) if e.args else ([], ('new',))
                for a in e.args[1:]: pre += self.eff(a)
                for kw in e.keywords: pre += self.eff(kw.value)
                return pre, k
            if fn.id in CONVERT:
                return args_effects(), ('shared',)
            f = self.resolve(fn.id, e)
            if f is not None: return self.project_call(f, e)
            alts = [n.value for n in ast.walk(self.f.node) if isinstance(n, ast.Assign)
                    and isinstance(n.targets[0], ast.Name) and n.targets[0].id == fn.id
                    and isinstance(n.value, ast.Attribute) and self.root(n.value) == 'algorithms']
            if alts:   # func = algorithms.f ... func(...)
                t = self.fresh(); self.locals.add(t)
                out = SKIP
                for a in alts:
                    c = ast.Call(func=a, args=e.args, keywords=e.keywords, lineno=e.lineno)
                    out = seq(self.assign_to(t, c)) if out == SKIP else ('ite', seq(self.assign_to(t, c)), out)
                return [out], ('move', t)
            if fn.id.endswith(('Error', 'Exception', 'NoPath', 'Unbounded', 'Failure', 'Concept', 'NotFound')):
                return args_effects(), ('new',)
            if fn.id not in BUILTIN_NEW and fn.id not in NS and fn.id not in self.locals:
                self.w(e, 'call')
            return args_effects(), ('new',)
        if isinstance(fn, ast.Call):
            # type(G)(A, ...)
            if isinstance(fn.func, ast.Name) and fn.func.id == 'type':
                pre, k = self.expr(e.args[0])
                for a in e.args[1:]: pre += self.eff(a)
                for kw in e.keywords: pre += self.eff(kw.value)
                return pre, k
            return self.eff(fn) + args_effects(), ('new',)
        if isinstance(fn, ast.Subscript):
            # semiring[dtype](..) or self._get_property[name](self, mask)
            if isinstance(fn.value, ast.Attribute) and fn.value.attr == '_get_property':
                return args_effects(), ('shared',)
            return self.eff(fn.value) + args_effects(), ('new',)
        if isinstance(fn, ast.Attribute):
            r = self.root(fn)
            # algorithms.f(...), linalg.f(...)
            if isinstance(fn.value, ast.Name) and fn.value.id in ('algorithms', 'linalg', 'generators', 'utils_'):
                c = [g for g in byname.get(fn.attr, []) if g.cls is None and g.mod.startswith(fn.value.id)]
                if c: return self.project_call(c[0], e)
                self.w(e, 'unresolved')
                return args_effects(), ('shared',)
            if fn.attr == '_cacheit':
                # calls its argument func(*args, **kwargs) unless the result is known
                name = e.args[1].id
                alts = [n.value for n in ast.walk(self.f.node) if isinstance(n, ast.Assign)
                        and isinstance(n.targets[0], ast.Name) and n.targets[0].id == name]
                out = SKIP
                for a in alts:
                    c = ast.Call(func=a, args=e.args[2:], keywords=e.keywords, lineno=e.lineno)
                    out = ('ite', seq(self.assign_to('_c', c)), out)
                return [out], ('shared',)
            if fn.attr in PROPERTY:
                pre = self.eff(fn.value) + args_effects() + [('shared', '_p')]
                num = e.args and isinstance(e.args[0], ast.Constant) and e.args[0].value in NUMBER_PROP
                return pre, ('new',) if num else ('shared',)
            if fn.attr in ('reverse', 'to_undirected') and r in self.locals:
                c = [g for g in byname.get(fn.attr, []) if g.cls == 'DiGraph']
                return self.project_call(c[0], e, recv=fn.value)
            c = [g for g in byname.get(fn.attr, []) if g.mod == 'classes._utils']
            if c and (r in self.locals):
                return self.project_call(c[0], e, recv=fn.value)
            if fn.attr == 'update' and isinstance(fn.value, ast.Attribute) and fn.value.attr == 'graph':
                return args_effects(), ('new',)   # attribute dictionary of a graph constructed in this call
            if fn.attr in MUT_METHODS:
                pre = self.eff(fn.value) + args_effects()
                if r in self.locals: pre.append(('write', r))
                return pre, ('new',)
            if fn.attr in NEW_METHODS or r in NS:
                return self.eff(fn.value) + args_effects(), ('new',)
            self.w(e, 'method')
            return self.eff(fn.value) + args_effects(), ('new',)
        self.w(e, 'call form')
        return args_effects(), ('new',)

    def values(self, e):
        if e is None: return [], []
        elts = e.elts if isinstance(e, ast.Tuple) else [e]
        pre, xs = [], []
        for x in elts:
            p, v = self.as_var(x)
            pre += p
            xs.append(v)
        return pre, xs

    def assign(self, target, value):
        if isinstance(target, ast.Name):
            return self.assign_to(target.id, value)
        if isinstance(target, (ast.Tuple, ast.List)):
            names = []
            for t in target.elts:
                if isinstance(t, ast.Starred): t = t.value
                names.append(t)
            if isinstance(value, ast.Tuple):
                pre, tmps = [], []
                for v in value.elts:
                    t = self.fresh()
                    pre += self.assign_to(t, v)
                    tmps.append(t)
                for n, t in zip(names, tmps):
                    if isinstance(n, ast.Name):
                        self.locals.add(n.id)
                        pre.append(('move', n.id, t))
                    else:
                        pre += self.assign(n, ast.Name(id=t))
                return pre
            pre, k = self.expr(value)
            ids = [n.id for n in names if isinstance(n, ast.Name)]
            for n in ids: self.locals.add(n)
            if k[0] == 'call':
                return pre + [('call', ids, k[2], k[1])]
            kinds = None
            if isinstance(value, ast.Call) and isinstance(value.func, ast.Attribute) and value.func.attr == 'get_properties' \
                    and isinstance(value.args[0], ast.Constant):
                kinds = ['new' if p_ in NUMBER_PROP else 'shared' for p_ in value.args[0].value.split()]
            for i, n in enumerate(ids):
                pre.append(('new', n) if (kinds[i] if kinds else k[0]) == 'new' else ('shared', n))
            return pre
        if isinstance(target, ast.Subscript):
            pre = self.eff(value)
            r = self.root(target)
            if r == 'cache' or (isinstance(target.value, ast.Attribute) and target.value.attr == '_cache'):
                return pre   # a new entry of the graph's cache
            if isinstance(target.value, ast.Attribute) and target.value.attr == '_A' and r in self.locals:
                return pre + [('write', r)]   # a graph object stands for its matrix
            return pre + ([('write', r)] if r in self.locals else [])
        if isinstance(target, ast.Attribute):
            pre = self.eff(value)
            r = self.root(target)
            if target.attr in ('_id_to_key',): return pre   # memo of the inverse dictionary
            return pre + ([('write', r)] if r in self.locals else [])
        self.w(target, 'target')
        return []

    def block(self, body):
        return seq([s for st in body for s in self.stmt(st)])

    def stmt(self, st):
        if isinstance(st, ast.Assign):
            if len(st.targets) > 1:
                pre = self.assign_to('_m', st.value)
                for t in st.targets: pre += self.assign(t, ast.Name(id='_m', lineno=st.lineno))
                return pre
            return self.assign(st.targets[0], st.value)
        if isinstance(st, ast.AnnAssign):
            return self.assign(st.target, st.value)
        if isinstance(st, ast.AugAssign):
            pre = self.eff(st.value)
            r = self.root(st.target)
            if isinstance(st.target, ast.Name) and r in NUMBER_PARAM & set(self.f.params):
                return pre + [('new', r)]
            return pre + [('write', r)]
        if isinstance(st, ast.Expr):
            e = st.value
            if isinstance(e, ast.BinOp) and isinstance(e.op, ast.LShift):
                pre = self.eff(e.right)
                l = e.left
                if isinstance(l, ast.Call):
                    for a in l.args: pre += self.eff(a)
                    for kw in l.keywords: pre += self.eff(kw.value)
                r = self.root(l)
                return pre + [('write', r)]
            pre, k = self.expr(e)
            if k[0] == 'call': pre = pre + [('call', [], k[2], k[1])]
            return pre
        if isinstance(st, ast.If):
            p = self.eff(st.test)
            save = set(self.locals)
            a = self.block(st.body); la = self.locals
            self.locals = set(save)
            b = self.block(st.orelse)
            self.locals |= la
            return p + ([('ite', a, b)] if (a, b) != (SKIP, SKIP) else [])
        if isinstance(st, (ast.For, ast.While)):
            pre = []
            head = []
            if isinstance(st, ast.For):
                pre, k = self.expr(st.iter)
                if k[0] == 'call':
                    t = self.fresh(); self.locals.add(t)
                    pre = pre + self.bind(t, k); k = ('move', t)
                elt = ('new',) if k[0] == 'new' else ('shared',)
                if k[0] == 'move' and k[1].startswith('_'): elt = k
                if isinstance(st.iter, ast.Name) and st.iter.id == 'G': elt = ('new',)   # node keys
                for n in ast.walk(st.target):
                    if isinstance(n, ast.Name):
                        self.locals.add(n.id)
                        head += self.bind(n.id, elt)
            else:
                head = self.eff(st.test)
            b = seq(head + [self.block(st.body)])
            rest = self.block(st.orelse)
            return pre + [('loop', None, b), rest]
        if isinstance(st, ast.Return):
            pre, xs = self.values(st.value)
            return pre + [('ret', xs)]
        if isinstance(st, ast.Raise):
            return self.eff(st.exc) if st.exc is not None else []
        if isinstance(st, ast.Try):
            a = seq([self.block(st.body), self.block(st.orelse)])
            hs = []
            for h in st.handlers:
                if isinstance(h.body[-1], ast.Raise): continue
                hs.append(self.block(h.body))
            if not hs: return [a]
            h = hs[0]
            for x in hs[1:]: h = ('ite', h, x)
            return [('attempt', None, a, h)]
        if isinstance(st, ast.Delete):
            out = []
            for t in st.targets:
                if isinstance(t, ast.Subscript):
                    r = self.root(t)
                    out.append(('write', r))
            return out
        if isinstance(st, ast.With):
            return [self.block(st.body)]
        if isinstance(st, ast.FunctionDef):
            self.locals.add(st.name)
            return []
        if isinstance(st, (ast.Pass, ast.Import, ast.ImportFrom, ast.Assert, ast.Break, ast.Continue, ast.Global)):
            return []
        self.w(st, 'statement ' + type(st).__name__)
        return []

done = []
def translate(f):
    if f.stmt is not None: return
    f.stmt = SKIP
    t = Tr(f)
    body = t.block(f.node.body)
    # variables first bound inside a loop start with a dummy object
    inloop = []
    def assigned(s, l):
        if s[0] in ('new', 'shared', 'move'):
            if l and s[1] not in inloop and s[1] not in f.params: inloop.append(s[1])
        elif s[0] in ('seq', 'ite'):
            assigned(s[1], l); assigned(s[2], l)
        elif s[0] == 'loop': assigned(s[2], True)
        elif s[0] == 'attempt': assigned(s[2], l); assigned(s[3], l)
        elif s[0] == 'call' and l:
            for x in s[1]:
                if x not in inloop and x not in f.params: inloop.append(x)
    assigned(body, False)
    body = seq([('new', x) for x in inloop] + [body])
    f.stmt, _ = annotate(body, frozenset())
    f.fresh = chk(True, f.stmt, frozenset()) is not None
    f.safe = chk(False, f.stmt, frozenset()) is not None
    done.append(f)

def lst(xs): return '[' + ', '.join(f'"{x}"' for x in xs) + ']'
def show(s, ind):
    k = s[0]
    pad = '  ' * ind
    if k == 'skip': return '.skip'
    if k in ('new', 'shared', 'write'): return f'.{k} "{s[1]}"'
    if k == 'move': return f'.move "{s[1]}" "{s[2]}"'
    if k == 'seq':
        out = []
        while s[0] == 'seq':
            out.append(s[1]); s = s[2]
        out.append(s)
        return f' ;;\n{pad}'.join(show(x, ind) if x[0] != 'seq' else '(' + show(x, ind) + ')' for x in out)
    if k == 'ite': return f'.ite ({show(s[1], ind+1)})\n{pad}  ({show(s[2], ind+1)})'
    if k == 'loop': return f'.loop {lst(sorted(s[1]))}\n{pad}  ({show(s[2], ind+1)})'
    if k == 'attempt': return f'.attempt {lst(sorted(s[1]))}\n{pad}  ({show(s[2], ind+1)})\n{pad}  ({show(s[3], ind+1)})'
    if k in ('ret', 'yield'): return f'.{k} {lst(s[1])}'
    if k == 'call': return f'{lean_id(s[3])}.call {lst(s[1])} {lst(s[2])}'

files = []
for d in ('algorithms', 'linalg', 'generators'):
    for root, _, fs in sorted(os.walk(os.path.join(BASE, d))):
        if 'tests' in root: continue
        for fn in sorted(fs):
            if fn.endswith('.py') and fn not in ('__init__.py', 'exceptions.py'):
                files.append(os.path.relpath(os.path.join(root, fn), BASE))
collect('classes/_utils.py')
collect('classes/digraph.py', ('DiGraph',))
collect('classes/graph.py')
for rel in files: collect(rel)
nxfiles = []
for root, _, fs in sorted(os.walk(os.path.join(BASE, 'nxapi'))):
    if 'tests' in root: continue
    for fn in sorted(fs):
        if fn.endswith('.py') and fn not in ('__init__.py', 'exception.py', '_utils.py'):
            nxfiles.append(os.path.relpath(os.path.join(root, fn), BASE))
for rel in nxfiles: collect(rel)

SKIPFN = {'classes.digraph', 'classes.graph'}
def wanted(f):
    if f.mod in ('classes.digraph', 'classes.graph'):
        return (f.cls == 'DiGraph' and f.name in ('reverse', 'to_undirected')) or (f.cls is None and (f.name.startswith('get_') or f.name.startswith('has_') or f.name.startswith('is_')))
    return True

if __name__ == '__main__':
    for f in list(fns.values()):
        if wanted(f): translate(f)
    for x in warn: print('WARN', x)
    for f in done:
        print(('fresh ' if f.fresh else 'safe  ' if f.safe else 'UNSAFE'), f.id)
    if len(sys.argv) > 1 and sys.argv[1] == 'write':
        o = []
        o.append("""import Verif.Model.Effects

/-!
# The functions of the library as `Effects.Stmt`

GENERATED by `tools/effects.py` from the Python sources; do not edit.  Every definition is one Python function:
branches, loops, `try` and calls are kept, expressions are reduced to whether they give a new object, an object the
graph or the caller also holds, or the object of another variable.  Reading a property is `.shared` (the lookup
functions are in the table too).  Variables `_1`, `_2`, .. are temporaries; variables first bound inside a loop start
with a dummy object.  A graph object, node map or node set stands for the matrix or vector it wraps.  Python numbers
count as new objects.
-/

namespace Model.Effects.Table
""")
        for f in done:
            n = f.node
            body = show(f.stmt, 2)
            o.append(f'/-- `{f.name}` -- {f.rel}:{n.lineno}-{n.end_lineno} -/')
            o.append(f'def {lean_id(f)} : Fn where')
            o.append(f'  name := "{f.id}"')
            o.append(f'  params := {lst(f.params)}')
            o.append(f'  body :=\n    {body}\n')
        def lname(l): return ',\n   '.join(lean_id(f) for f in l)
        o.append('/-- all of them -/')
        o.append(f'def all : List Fn :=\n  [{lname(done)}]\n')
        o.append('end Model.Effects.Table')
        open(OUT, 'w').write('\n'.join(o) + '\n')
