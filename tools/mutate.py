#!/usr/bin/env python3
"""Apply wrong-program edits to a scratch copy of the model, rebuild, log which theorems fail.

usage: mutate.py <mutations.py> [start]
Each mutation file defines MUTS = [(file, old, new, definition, edit, claim), ...]; file is relative
to lean/Verif.  The scratch copy lives in /tmp/mut/lean.  Results are appended to seeded/LOG.jsonl."""
import sys, os, re, subprocess, json, shutil, importlib.util, signal, threading
SRC='/verif/lean'; DST='/tmp/mut/lean'
def sh(c, **k): return subprocess.run(c, shell=True, text=True, capture_output=True, **k)
def sync():
    sh(f'mkdir -p {DST}; rm -rf {DST}/Verif {DST}/.lake; cp -a {SRC}/. {DST}/')
def decl_at(path, line):
    ls=open(path).read().split('\n'); ns=[]; name=None
    for i,l in enumerate(ls[:line]):
        m=re.match(r'(?:@\[[^\]]*\]\s*)?(?:private |protected |noncomputable )*(theorem|def|example|instance|lemma|abbrev|structure)\s*([^\s:({\[]*)',l)
        if m: name=m.group(2) or f'{m.group(1)}@{os.path.basename(path)}:{i+1}'
    return name
def deps():
    p='/tmp/mut/deps.json'
    code='''import Verif
open Lean
run_cmd do
  let env ← getEnv
  let mut out := #[]
  for (n, ci) in env.constants.toList do
    if ((`Verif.Props).isPrefixOf n || (`Verif.X64.Props).isPrefixOf n) && !n.isInternal then
      if let .thmInfo _ := ci then
        let mut seen : NameSet := {}
        let mut todo := #[n]
        while todo.size > 0 do
          let c := todo.back!
          todo := todo.pop
          if !seen.contains c then
            seen := seen.insert c
            if let some ci := env.find? c then
              let e := match ci.value? (allowOpaque := true) with | some v => v.getUsedConstants | none => #[]
              for d in e ++ ci.type.getUsedConstants do
                if (`Verif).isPrefixOf d then todo := todo.push d
        out := out.push (Json.mkObj [("t", toString n), ("d", Json.arr (seen.toList.toArray.map (fun x => Json.str (toString x))))])
  IO.FS.writeFile "%s" (Json.arr out).compress
'''%p
    open('/tmp/mut/Deps.lean','w').write(code)
    r=sh('lake env lean /tmp/mut/Deps.lean',cwd=SRC)
    if r.returncode: print(r.stdout[-2000:],r.stderr[-2000:]); sys.exit(1)
    return {e['t']:set(x.split('.')[-1] for x in e['d']) for e in json.load(open(p))}
GRACE=float(os.environ.get('GRACE','150'))
def build():
    """Build; once something has failed, give the rest GRACE more seconds."""
    pr=subprocess.Popen('timeout 3000 lake build 2>&1',shell=True,text=True,stdout=subprocess.PIPE,cwd=DST,start_new_session=True)
    out=[]; t=None
    def stop():
        try: os.killpg(pr.pid,signal.SIGKILL)
        except ProcessLookupError: pass
    for l in pr.stdout:
        out.append(l)
        if t is None and re.match(r'error: Verif/\S+\.lean:\d+',l):
            t=threading.Timer(GRACE,stop); t.start()
    rc=pr.wait()
    if t: t.cancel(); rc=rc or 1
    return ''.join(out),rc
def main():
    spec=importlib.util.spec_from_file_location('m',sys.argv[1]); m=importlib.util.module_from_spec(spec); spec.loader.exec_module(m)
    start=int(sys.argv[2]) if len(sys.argv)>2 else 0
    D=deps(); sync()
    r=sh('lake build 2>&1',cwd=DST)
    if r.returncode: print('baseline fails',r.stdout[-2000:]); sys.exit(1)
    sh(f'rm -rf /tmp/mut/pristine; cp -a {DST}/.lake/build /tmp/mut/pristine')
    for k,(f,old,new,dfn,edit,claim) in enumerate(m.MUTS):
        if k<start: continue
        p=f'{DST}/Verif/{f}'; s=open(p).read(); 
        if s.count(old)<1: print('!! pattern not found',f,old); continue
        open(p,'w').write(s.replace(old,new,1))
        out,rc=build()
        failed=[]
        for mm in re.finditer(r'error: (Verif/\S+\.lean):(\d+):(\d+)',out):
            d=decl_at(f'{DST}/{mm.group(1)}',int(mm.group(2)))
            if d not in failed: failed.append(d)
        base=set((d or '').split('.')[-1] for d in failed)
        props=sorted(t.split('.')[-1] for t,ds in D.items() if ds & base)
        surv = rc==0
        rec={'definition':dfn,'edit':edit,'claim':claim,'theorems_failed':failed[:12],'property_theorems_affected':props[:25],'survived':surv,'tightened':[]}
        open('/verif/seeded/LOG.jsonl','a').write(json.dumps(rec)+'\n')
        print(k,'SURVIVED' if surv else 'killed',dfn,'|',edit,'|',failed[:6],flush=True)
        open(p,'w').write(s)
        sh(f'rm -rf {DST}/.lake/build; cp -a /tmp/mut/pristine {DST}/.lake/build')
main()
