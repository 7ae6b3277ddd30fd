#!/usr/bin/env python3
"""Wrong Python programs for the ownership model (C90, C91): edit a scratch copy of /repo, translate it with
tools/effects.py into a scratch copy of the Lean project, rebuild Props/Effects.

usage: mutate_effects.py RESULTS.jsonl   (MUT_SRC: the Lean project to copy)"""
import json, os, re, shutil, subprocess, sys
SRC = os.environ.get('MUT_SRC', '/verif/lean'); WORK = '/tmp/mut/workE'; REPO = '/tmp/mut/repoE'
A = 'graphblas_algorithms/'
M = [
 ('ef01', 'algorithms/core.py', 'C = Matrix("int32", S.nrows, S.ncols)', 'C = S', 'k_truss filters the cached matrix in place'),
 ('ef02', 'linalg/graphmatrix.py', 'return G._A.dup(dtype, name=name)', 'return G._A', 'adjacency_matrix returns the matrix of the graph itself'),
 ('ef03', 'algorithms/link_analysis/pagerank_alg.py', 'A = A.dup(float, name=name)', 'pass', 'google_matrix rescales the matrix of the graph in place'),
 ('ef04', 'algorithms/operators/unary.py', 'R = (~A.S).new(A.dtype, name=name)', 'R = A', 'complement removes the self-loops of its argument'),
 ('ef05', 'algorithms/link_analysis/hits_alg.py', 'h << nstart', 'h = nstart', 'hits normalises the start vector of the caller'),
 ('ef06', 'algorithms/centrality/katz.py', 'x << nstart', 'x = nstart', 'katz uses the start vector of the caller as a buffer'),
 ('ef07', 'algorithms/boundary.py', 'B = binary.second(nbunch1 & G._A).new(name="boundary")', 'B = G._A', 'edge_boundary filters the matrix of the graph'),
 ('ef08', 'algorithms/cluster.py', 'C = semiring(L @ L.T).new(mask=L.S)\n    D = semiring(U @ L.T).new(mask=U.S)', 'C = L\n    D = semiring(U @ L.T).new(mask=U.S)', 'weighted triangles multiply the cached lower triangle in place'),
 ('ef09', 'algorithms/shortest_paths/unweighted.py', 'seen_src = q_src.dup(name="seen_src")', 'seen_src = q_src', 'aliases two local vectors (wrong result, but no existing object changes: must survive)'),
 ('ef10', 'algorithms/traversal/breadth_first_search.py', 'yield q.dup(name=f"bfs_layer_{i}")', 'yield q', 'yields the working vector (new object all the same: must survive)'),
 ('ef11', 'algorithms/centrality/eigenvector.py', 'x << nstart', 'x = nstart', 'eigenvector_centrality normalises the start vector of the caller'),
 ('ef12', 'classes/_caching.py', None, None, 'not translated'),
]
res = sys.argv[1]
done = {json.loads(l)['id'] for l in open(res)} if os.path.exists(res) else set()
for id_, f, old, new, what in M:
    if old is None or id_ in done: continue
    shutil.rmtree(REPO, ignore_errors=True); shutil.copytree('/repo', REPO)
    p = f'{REPO}/{A}{f}'; s = open(p).read()
    if old not in s:
        print(id_, 'BADEDIT', flush=True); continue
    open(p, 'w').write(s.replace(old, new, 1))
    if not os.path.exists(WORK): shutil.copytree(SRC, WORK, symlinks=True)
    r = subprocess.run(['python3', '/verif/tools/effects.py', 'write'], capture_output=True, text=True,
                       env={**os.environ, 'EFFECTS_BASE': REPO + '/graphblas_algorithms', 'EFFECTS_OUT': WORK + '/Verif/Model/EffectsTable.lean'})
    if r.returncode: print(id_, "TRANSLATOR", r.stderr[-300:]); continue
    b = subprocess.run(['lake', 'build', 'Verif.Props.Effects'], cwd=WORK, capture_output=True, text=True)
    out = b.stdout + b.stderr
    errs = re.findall(r'error: (Verif/\S+?\.lean):(\d+):', out)
    from mutate import decl_at
    failed = sorted({f"{e[6:-5]}:{decl_at(WORK + '/' + e, int(l))}" for e, l in errs})
    st = 'survived' if b.returncode == 0 else 'killed'
    o = dict(id=id_, file='Model/EffectsTable.lean (generated from ' + f + ')', edit=f'{old}  ==>  {new}', claim='C90', what=what, status=st, failed=failed, blocked=[], warn=(r.stdout + r.stderr)[-300:])
    open(res, 'a').write(json.dumps(o) + '\n'); print(id_, st, failed, r.stderr[-200:], flush=True)
