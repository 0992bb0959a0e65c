#!/usr/bin/env python3
"""Random syntactic mutants of the model definitions, to find edits no theorem notices.
usage: automut.py SEED PER_DEF OUT.jsonl [file-substring ...]
Works in /tmp/auto (copy of /verif/lean). A mutant that does not elaborate in its own file is skipped."""
import json,sys,os,re,random,subprocess,shutil,time
SRC='/verif/lean'; SCR='/tmp/auto/lean'
seed,per,outp=int(sys.argv[1]),int(sys.argv[2]),sys.argv[3]; subs=sys.argv[4:]
rnd=random.Random(seed)
PRI='/tmp/auto/pristine'
shutil.rmtree('/tmp/auto',ignore_errors=True); os.makedirs('/tmp/auto')
subprocess.check_call(['cp','-a',SRC,PRI])
OPS=[(' < ',' ≤ '),(' ≤ ',' < '),(' > ',' ≥ '),(' + 1',''),(' - 1',''),(' + ',' - '),(' * ',' + '),(' = ',' ≠ '),(' ≠ ',' = '),(' ∧ ',' ∨ '),(' ∨ ',' ∧ '),
 (' ∈ ',' ∉ '),(' ∉ ',' ∈ '),('true','false'),('false','true'),(' 0 ',' 1 '),(' 1 ',' 0 '),(' 1 ',' 2 '),('.keyError','.valueError'),('.valueError','.keyError'),
 ('.indexError','.keyError'),('.zeroDivision','.valueError'),('.nameError','.typeError'),('.typeError','.nameError'),(' :: ',' :: '),('.reverse',''),('.dedup',''),
 (' ++ ',' ++SWAP '),('.1','.2'),('.2','.1'),('.any','.all'),('.all','.any'),('head','getLast'),(' / ',' * '),(' - ',' + '),('some ','SOMENONE'),('&&','||'),('||','&&'),('!',''),
 ('.filter','.filterNEG'),('.drop','.take'),('.take','.drop'),('.erase','.eraseX'),('.set ','.setX '),('min','max'),('max','min'),('.symm','')]
def defs(text):
    # (name,start,end) of body
    res=[]
    ms=list(re.finditer(r'^(?:noncomputable |private |protected )*(def|abbrev) ([^\s:({\[]+)',text,re.M))
    for i,m in enumerate(ms):
        end=len(text)
        for n in re.finditer(r'\n\n|\n/--|\nend |\nnamespace |\nopen |\nvariable ',text[m.end():]):
            end=m.end()+n.start(); break
        res.append((m.group(2),m.end(),end))
    return res
cands=[]
for root,_,fs in os.walk(os.path.join(PRI,'Verif')):
    if '/Model' not in root and '/Py' not in root: continue
    for f in sorted(fs):
        if not f.endswith('.lean'): continue
        path=os.path.join(root,f); rel=os.path.relpath(path,PRI)
        if subs and not any(s in rel for s in subs): continue
        t=open(path).read()
        for name,a,b in defs(t):
            body=t[a:b]
            k=body.find(':=')
            k2=re.search(r'\n\s*\|',body)
            st=min([x for x in (k if k>=0 else None, k2.start() if k2 else None) if x is not None],default=None)
            if st is None: continue
            L=[]
            for o,n in OPS:
                for m in re.finditer(re.escape(o),body[st:]):
                    p=a+st+m.start()
                    if n==' :: ' or 'X' in n or 'NEG' in n or 'SWAP' in n or 'SOMENONE' in n: continue
                    if o in ('true','false','min','max','head','some ') and (t[p-1].isalnum() or (t[p+len(o):p+len(o)+1].isalnum())): continue
                    L.append((p,o,n))
            # negated conditions, swapped arguments, dropped updates, emptied lists
            for rx,rep in [(r'\bif (?!h)([^\n]*?) then\b',r'if ¬ (\1) then'),(r'(?<=[\w)] )([a-z]\w{0,2}) ([a-z]\w{0,2})\b(?! *[:←=])',r'\2 \1'),
                           (r'\((\w+)\.set \S+ (?:\w+|\([^()]*\))\)',r'\1'),(r'(?<=[ (])\[[a-z]\w{0,2}\]',r'[]'),(r'\(([a-z]\w*), ([a-z]\w*)\)',r'(\2, \1)')]:
                for m in re.finditer(rx,body[st:]):
                    o=m.group(0); n=m.expand(rep)
                    if o!=n and not re.search(r'\b(fun|let|do|then|else|with|at|in|if)\b',o if not o.startswith('if') else ''): L.append((a+st+m.start(),o,n))
            rnd.shuffle(L)
            cands.append((rel,name,L))
rnd.shuffle(cands)
def fresh():
    shutil.rmtree(SCR,ignore_errors=True); subprocess.check_call(['cp','-a',PRI,SCR])
tot=0
for rel,name,L in cands:
    done=0
    for p,o,n in L:
        if done>=per: break
        t=open(os.path.join(PRI,rel)).read()
        mt=t[:p]+n+t[p+len(o):]
        fresh()
        open(os.path.join(SCR,rel),'w').write(mt)
        mod=rel[:-5].replace('/','.')
        r=subprocess.run(['lake','build',mod],cwd=SCR,capture_output=True,text=True)
        if r.returncode!=0: continue
        t0=time.time()
        pr=subprocess.Popen(['lake','build'],cwd=SCR,stdout=subprocess.PIPE,stderr=subprocess.STDOUT,text=True)
        fail=None
        for line in pr.stdout:
            m=re.match(r'error: (Verif/\S+\.lean:\d+)',line)
            if m: fail=m.group(1); break
        if fail: pr.kill(); subprocess.run(['pkill','-f','/tmp/auto/lean']); 
        pr.wait()
        ln=t[:p].count('\n')+1
        rec=dict(file=rel,name=name,line=ln,old=o,new=n,ctx=t[max(0,p-60):p+60],killed=fail,secs=round(time.time()-t0))
        open(outp,'a').write(json.dumps(rec,ensure_ascii=False)+'\n')
        done+=1; tot+=1
print('done',tot)
